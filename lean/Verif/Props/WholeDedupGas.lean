import Verif.Lemmas.WholeDedupGas
import Verif.Props.WholeGas
import Verif.Props.WholeDedup
/-!
# C71: a whole compiled program with deduplicated blocks leaves the gas that the EVM leaves

The EVM pays for every instruction when it executes it (`Spec.GasRun`). The compiled program with deduplicated blocks
(`DCompiled.runG`) pays for the sections of the blocks that were kept, also when it is there in place of a block that
was removed. Claimed is that this cannot be told apart, in a world and with dynamic costs that do not depend on the
place of an instruction (`Placeless`, `PlacelessCosts`) and if STOP is free, since code that does not end is completed
by a STOP that costs nothing. Statements as in C55, except that the compiled program may be at another copy of the
instruction.

All theorems here are partial, for the reasons given in C55 and C60.
-/

namespace Verif
open Spec
variable {F : Type}

theorem gasRun_on {C : Compiled} {code : Code} {spec : SpecId} {base : List InstData} {env : Env F}
    {dyn : Nat → Nat → List Word → Nat} {ok : Nat → List Word → Prop} {g0 k i : Nat} {c : List Word} {tr : List (Obs F)}
    {g : Nat} {rd : List (Nat × Nat)} (h : Spec.GasRun code base spec env dyn ok g0 k i c tr g rd) (hc : C.code = code)
    (hs : C.spec = spec) : Spec.GasRun C.code base C.spec env dyn ok g0 k i c tr g rd := by
  rw [hc, hs]; exact h

/-- The compiled program ends at a copy of the instruction that ends the EVM's execution, otherwise as in `EndsPaid`. -/
def DEndsPaid (D : DCompiled) (base : List InstData) (o : WOpts) (expCost : Word → Nat) (env : Env F)
    (dyn : Nat → Nat → List Word → Nat) (clob : Nat → Int → Word) (mem : Int → Word) (g0 k i : Nat) (d : InstData)
    (c : List Word) (tr : List (Obs F)) (g : Nat) (rd : List (Nat × Nat)) : Prop :=
  ∃ n j cx, D.runG expCost env dyn clob mem g0 n = .halted j cx (g - d.baseGas - dyn k i (c.take d.stackIo.1)) rd ∧
    Copies base i j ∧ effects (shown cx.trace) = observed env k i d c ++ tr ∧
    cx.lenVar = (c.drop d.stackIo.1).length ∧ ((o.dse = true → o.inspect = true) → Holds cx (c.drop d.stackIo.1))

/-- Two ends of a paying program that differ at most in the copy of the instruction. -/
inductive PaidCopy (base : List InstData) : GOut F → GOut F → Prop
  | halted {i j : Nat} {cx : SCx (Option (Paid F))} {g : Nat} {rd : List (Nat × Nat)} : Copies base i j →
      PaidCopy base (.halted i cx g rd) (.halted j cx g rd)
  | invalidJump : PaidCopy base .invalidJump .invalidJump
  | stackError {f : StackFail} : PaidCopy base (.stackError f) (.stackError f)
  | badImmediate {i j : Nat} : Copies base i j → PaidCopy base (.badImmediate i) (.badImmediate j)
  | outOfGas : PaidCopy base .outOfGas .outOfGas

/-- C71, full statement for executions that halt and take at most 64 words to a JUMPDEST or behind a JUMPI. -/
def C71_halts : Prop :=
  ∀ (F : Type) (tbl : UInt8 → BitVec 16) (spec : SpecId) (limit : Nat) (bytes : List UInt8) (o : WOpts) (D : DCompiled),
    compileDedup o tbl spec limit bytes = some D → bytes.length ≤ 2 ^ 31 → tbl op.STOP = 0 →
    ∀ (env : Env F) (dyn : Nat → Nat → List Word → Nat) (expCost : Word → Nat) (clob : Nat → Int → Word)
      (mem : Int → Word), World (parse tbl spec bytes).toProg.insts env →
    Placeless (parse tbl spec bytes).toProg.insts env → Costs (parse tbl spec bytes).toProg.insts dyn expCost →
    PlacelessCosts (parse tbl spec bytes).toProg.insts dyn →
    ∀ g0 k i c tr g rd d, GasRun (parse tbl spec bytes).toCode (parse tbl spec bytes).toProg.insts spec env dyn
        (shallow (parse tbl spec bytes).toProg.insts) g0 k i c tr g rd →
      (parse tbl spec bytes).toProg.insts[i]? = some d → Halts d →
      ¬ (d.flags.disabled = true ∨ d.flags.unknown = true) → d.stackIo.1 ≤ c.length →
      d.baseGas + dyn k i (c.take d.stackIo.1) ≤ g →
      DEndsPaid D (parse tbl spec bytes).toProg.insts o expCost env dyn clob mem g0 k i d c tr g rd

section forward
variable {tbl : UInt8 → BitVec 16} {spec : SpecId} {limit : Nat} {bytes : List UInt8} {o : WOpts} {D : DCompiled}
  (hD : compileDedup o tbl spec limit bytes = some D) (hlen : bytes.length ≤ 2 ^ 31) (hstop : tbl op.STOP = 0)
  (hplain : ∀ (i : Nat) d, (analyzeBytes tbl spec limit bytes).1.insts[i]? = some d → d.flags.deadCode = false → Plain d)
  {env : Env F} {dyn : Nat → Nat → List Word → Nat} {expCost : Word → Nat}
  (clob : Nat → Int → Word) (mem : Int → Word) (hw : World (parse tbl spec bytes).toProg.insts env)
  (hp : Placeless (parse tbl spec bytes).toProg.insts env)
  (hc : Costs (parse tbl spec bytes).toProg.insts dyn expCost)
  (hpc : PlacelessCosts (parse tbl spec bytes).toProg.insts dyn)
  (hfits : GasFits (parse tbl spec bytes).toProg.insts expCost)
include hD hlen hstop hplain hw hp hc hpc hfits

section runs
variable {g0 k i : Nat} {c : List Word} {tr : List (Obs F)} {g : Nat} {rd : List (Nat × Nat)} {d : InstData}
  (hr : GasRun (parse tbl spec bytes).toCode (parse tbl spec bytes).toProg.insts spec env dyn
    (shallow (parse tbl spec bytes).toProg.insts) g0 k i c tr g rd)
include hr

/-- C71, running: whenever the EVM is at the first instruction of a block, the compiled program is at the block that
replaces it, with the same gas, having read the same values of the counter, holding the same stack and with the same
observations. -/
theorem C71_enters_partial {b : Nat × Nat} (hb : b ∈ (analyzeBytes tbl spec limit bytes).1.blocks) (hi : b.1 = i) :
    ∃ n cx, D.runG expCost env dyn clob mem g0 n = .running k (effective D.redirects i) cx g rd ∧ Holds cx c ∧
      effects (shown cx.trace) = tr := by
  obtain ⟨M, hM, hs⟩ := hfits
  obtain ⟨s, c', C, G, hcode, hspec, hbl, hred, hsf, S, hsim⟩ :=
    dgas_of hD hlen hstop (steady_analyze tbl spec limit hlen) hplain hM hs
  have hr := gasRun_on hr hcode hspec
  obtain ⟨n, cx, h1, h2⟩ := G.genters (clob := clob) (mem := mem) hw hc hsf hr (by rw [hbl]; exact hb) hi
  have hn := hsim F env dyn clob mem g0 n hp hpc (by rw [h1]; exact fun h => nomatch h)
  rw [h1] at hn
  refine ⟨n, cx, ?_, h2⟩
  generalize D.runG expCost env dyn clob mem g0 n = out at hn ⊢
  cases hn
  rw [hred]

/-- C71, halting: where the EVM halts with STOP, RETURN, REVERT, INVALID or SELFDESTRUCT, having paid for it, so does
the compiled program at a copy of the instruction, with the same gas left. -/
theorem C71_halts_partial (hd : (parse tbl spec bytes).toProg.insts[i]? = some d) (hh : Halts d)
    (hoff : ¬ (d.flags.disabled = true ∨ d.flags.unknown = true)) (hin : d.stackIo.1 ≤ c.length)
    (hg : d.baseGas + dyn k i (c.take d.stackIo.1) ≤ g) :
    DEndsPaid D (parse tbl spec bytes).toProg.insts o expCost env dyn clob mem g0 k i d c tr g rd := by
  obtain ⟨M, hM, hs⟩ := hfits
  obtain ⟨s, c', C, G, hcode, hspec, hbl, hred, hsf, S, hsim⟩ :=
    dgas_of hD hlen hstop (steady_analyze tbl spec limit hlen) hplain hM hs
  have hr := gasRun_on hr hcode hspec
  obtain ⟨n, cx, h1, h2⟩ :=
    (G.ghalts (clob := clob) (mem := mem) hw hc hsf hr hd hh hin).1 (by simpa using hoff) hg
  have hn := hsim F env dyn clob mem g0 n hp hpc (by rw [h1]; exact fun h => nomatch h)
  rw [h1] at hn
  obtain ⟨e, he, he1, he2⟩ := S.base_shift hd
  obtain ⟨hf1, hf2⟩ := S.same _ _ _ _ hd he he1
  refine ⟨n, _, cx, ?_, ⟨d, e, hd, he, he1, he2, hf1, hf2⟩, h2⟩
  generalize D.runG expCost env dyn clob mem g0 n = out at hn ⊢
  cases hn
  rfl

/-- C71, opcodes that do not exist: where the EVM fails for a disabled or unknown opcode, so does the compiled
program, at a copy of it or because the section of the opcode is too expensive. -/
theorem C71_unknown_partial (hd : (parse tbl spec bytes).toProg.insts[i]? = some d)
    (hoff : d.flags.disabled = true ∨ d.flags.unknown = true) (hin : d.stackIo.1 ≤ c.length) :
    ∃ n, D.runG expCost env dyn clob mem g0 n = .outOfGas ∨
      ∃ j cx g' rd', D.runG expCost env dyn clob mem g0 n = .halted j cx g' rd' ∧
        Copies (parse tbl spec bytes).toProg.insts i j ∧
        effects (shown cx.trace) = observed env k i d c ++ tr := by
  obtain ⟨M, hM, hs⟩ := hfits
  obtain ⟨s, c', C, G, hcode, hspec, hbl, hred, hsf, S, hsim⟩ :=
    dgas_of hD hlen hstop (steady_analyze tbl spec limit hlen) hplain hM hs
  have hr := gasRun_on hr hcode hspec
  obtain ⟨n, h1⟩ := (G.ghalts (clob := clob) (mem := mem) hw hc hsf hr hd
    (by rcases hoff with h | h <;> simp [Halts, h]) hin).2 (by simpa using hoff)
  refine ⟨n, ?_⟩
  rcases h1 with h1 | ⟨cx, g', rd', h1, h2⟩
  · have hn := hsim F env dyn clob mem g0 n hp hpc (by rw [h1]; exact fun h => nomatch h)
    rw [h1] at hn
    left
    generalize D.runG expCost env dyn clob mem g0 n = out at hn ⊢
    cases hn
    rfl
  · have hn := hsim F env dyn clob mem g0 n hp hpc (by rw [h1]; exact fun h => nomatch h)
    rw [h1] at hn
    obtain ⟨e, he, he1, he2⟩ := S.base_shift hd
    obtain ⟨hf1, hf2⟩ := S.same _ _ _ _ hd he he1
    refine .inr ⟨_, cx, g', rd', ?_, ⟨d, e, hd, he, he1, he2, hf1, hf2⟩, h2⟩
    generalize D.runG expCost env dyn clob mem g0 n = out at hn ⊢
    cases hn
    rfl

/-- C71, invalid jumps: where the EVM fails with an invalid jump that it could pay, so does the compiled program. -/
theorem C71_invalid_partial (hd : (parse tbl spec bytes).toProg.insts[i]? = some d) (hh : ¬ Halts d)
    (hj : d.opcode.toNat = 0x56 ∨ d.opcode.toNat = 0x57) (hin : d.stackIo.1 ≤ c.length)
    (hn : evmNext (parse tbl spec bytes).toCode i d c = none) (hg : d.baseGas + dyn k i (c.take d.stackIo.1) ≤ g) :
    ∃ n, D.runG expCost env dyn clob mem g0 n = .invalidJump := by
  obtain ⟨M, hM, hs⟩ := hfits
  obtain ⟨s, c', C, G, hcode, hspec, hbl, hred, hsf, S, hsim⟩ :=
    dgas_of hD hlen hstop (steady_analyze tbl spec limit hlen) hplain hM hs
  have hr := gasRun_on hr hcode hspec
  rw [← hcode] at hn
  have hjump : d.isJump = true := by
    unfold InstData.isJump
    rcases hj with h | h
    · rw [toNat_eq (k := 0x56) (by omega) h]; rfl
    · rw [toNat_eq (k := 0x57) (by omega) h]; rfl
  obtain ⟨n, h1⟩ := G.ginvalid (clob := clob) (mem := mem) hw hc hsf hr hd hh hjump hin hn hg
  have hn := hsim F env dyn clob mem g0 n hp hpc (by rw [h1]; exact fun h => nomatch h)
  rw [h1] at hn
  refine ⟨n, ?_⟩
  generalize D.runG expCost env dyn clob mem g0 n = out at hn ⊢
  cases hn
  rfl

/-- C71, other failures: where the EVM fails with a stack error or an undecodable immediate, the compiled program
fails with a stack error, at a copy of the immediate, or for lack of gas. For blocks whose heights span at most
32767. -/
theorem C71_fails_alike_partial (hd : (parse tbl spec bytes).toProg.insts[i]? = some d)
    (hfit : ∀ b ∈ (analyzeBytes tbl spec limit bytes).1.blocks,
      highest ((((parse tbl spec bytes).toProg.insts.drop b.1).take (b.2 - b.1)).map (·.stackIo)) 0 -
        lowest ((((parse tbl spec bytes).toProg.insts.drop b.1).take (b.2 - b.1)).map (·.stackIo)) 0 ≤ 32767)
    (hf : (c.length < d.stackIo.1 ∨ 1024 < c.length - d.stackIo.1 + d.stackIo.2) ∨
      Undecodable (parse tbl spec bytes).toCode i d) :
    ∃ n, D.runG expCost env dyn clob mem g0 n = .outOfGas ∨
      (∃ f, D.runG expCost env dyn clob mem g0 n = .stackError f) ∨
      (Undecodable (parse tbl spec bytes).toCode i d ∧
        ∃ j, D.runG expCost env dyn clob mem g0 n = .badImmediate j ∧ Copies (parse tbl spec bytes).toProg.insts i j) := by
  obtain ⟨M, hM, hs⟩ := hfits
  obtain ⟨s, c', C, G, hcode, hspec, hbl, hred, hsf, S, hsim⟩ :=
    dgas_of hD hlen hstop (steady_analyze tbl spec limit hlen) hplain hM hs
  have hr := gasRun_on hr hcode hspec
  rw [← hcode, ← undecodable_bad] at hf
  rw [← hcode]
  obtain ⟨n, h1⟩ := G.gfails (clob := clob) (mem := mem) hw hc hsf hr hd (G.fits (by rw [hbl]; exact hfit)) hf
  refine ⟨n, ?_⟩
  rcases h1 with h1 | ⟨f, h1⟩ | ⟨hb, h1⟩
  · have hn := hsim F env dyn clob mem g0 n hp hpc (by rw [h1]; exact fun h => nomatch h)
    rw [h1] at hn
    left
    generalize D.runG expCost env dyn clob mem g0 n = out at hn ⊢
    cases hn
    rfl
  · have hn := hsim F env dyn clob mem g0 n hp hpc (by rw [h1]; exact fun h => nomatch h)
    rw [h1] at hn
    refine .inr (.inl ⟨f, ?_⟩)
    generalize D.runG expCost env dyn clob mem g0 n = out at hn ⊢
    cases hn
    rfl
  · have hn := hsim F env dyn clob mem g0 n hp hpc (by rw [h1]; exact fun h => nomatch h)
    rw [h1] at hn
    obtain ⟨e, he, he1, he2⟩ := S.base_shift hd
    obtain ⟨hf1, hf2⟩ := S.same _ _ _ _ hd he he1
    refine .inr (.inr ⟨undecodable_bad.1 hb, _, ?_, ⟨d, e, hd, he, he1, he2, hf1, hf2⟩⟩)
    generalize D.runG expCost env dyn clob mem g0 n = out at hn ⊢
    cases hn
    rfl

/-- C71, out of gas: where the EVM runs out of gas, so does the compiled program, unless it reports a stack error
that the EVM would have met later in the same section. For blocks whose heights span at most 32767. -/
theorem C71_outOfGas_partial (hd : (parse tbl spec bytes).toProg.insts[i]? = some d)
    (hfit : ∀ b ∈ (analyzeBytes tbl spec limit bytes).1.blocks,
      highest ((((parse tbl spec bytes).toProg.insts.drop b.1).take (b.2 - b.1)).map (·.stackIo)) 0 -
        lowest ((((parse tbl spec bytes).toProg.insts.drop b.1).take (b.2 - b.1)).map (·.stackIo)) 0 ≤ 32767)
    (hg : NoGas dyn k i d c g) :
    ∃ n, D.runG expCost env dyn clob mem g0 n = .outOfGas ∨
      ∃ f, D.runG expCost env dyn clob mem g0 n = .stackError f := by
  obtain ⟨M, hM, hs⟩ := hfits
  obtain ⟨s, c', C, G, hcode, hspec, hbl, hred, hsf, S, hsim⟩ :=
    dgas_of hD hlen hstop (steady_analyze tbl spec limit hlen) hplain hM hs
  have hr := gasRun_on hr hcode hspec
  obtain ⟨n, h1⟩ := G.goog (clob := clob) (mem := mem) hw hc hsf hr hd (G.fits (by rw [hbl]; exact hfit)) hg
  refine ⟨n, ?_⟩
  rcases h1 with h1 | ⟨f, h1⟩
  · have hn := hsim F env dyn clob mem g0 n hp hpc (by rw [h1]; exact fun h => nomatch h)
    rw [h1] at hn
    left
    generalize D.runG expCost env dyn clob mem g0 n = out at hn ⊢
    cases hn
    rfl
  · have hn := hsim F env dyn clob mem g0 n hp hpc (by rw [h1]; exact fun h => nomatch h)
    rw [h1] at hn
    refine .inr ⟨f, ?_⟩
    generalize D.runG expCost env dyn clob mem g0 n = out at hn ⊢
    cases hn
    rfl

end runs

/-- C71, the other direction: if the compiled program has ended, then so does an execution of the EVM, in the same way
and with the same gas, up to the copy of the instruction — or the EVM's execution takes more than 64 words to a
JUMPDEST or behind a JUMPI, of which the theorems say nothing. In particular the compiled program runs out of gas only
if the EVM's execution fails. -/
theorem C71_outcome_partial
    (hfit : ∀ b ∈ (analyzeBytes tbl spec limit bytes).1.blocks,
      highest ((((parse tbl spec bytes).toProg.insts.drop b.1).take (b.2 - b.1)).map (·.stackIo)) 0 -
        lowest ((((parse tbl spec bytes).toProg.insts.drop b.1).take (b.2 - b.1)).map (·.stackIo)) 0 ≤ 32767)
    {g0 n : Nat} (hn : ∀ k i cx g rd, D.runG expCost env dyn clob mem g0 n ≠ .running k i cx g rd) :
    ∃ k i c tr g rd d, GasRun (parse tbl spec bytes).toCode (parse tbl spec bytes).toProg.insts spec env dyn
        (shallow (parse tbl spec bytes).toProg.insts) g0 k i c tr g rd ∧
      (parse tbl spec bytes).toProg.insts[i]? = some d ∧
      ((∃ out, PaidOutcome (parse tbl spec bytes).toCode env dyn k i d c tr g rd out ∧
          PaidCopy (parse tbl spec bytes).toProg.insts out (D.runG expCost env dyn clob mem g0 n)) ∨
       ∃ i' c', Step (parse tbl spec bytes).toCode (parse tbl spec bytes).toProg.insts i c i' c' ∧
         Follows (parse tbl spec bytes).toCode env k i d c c' ∧
         ¬ shallow (parse tbl spec bytes).toProg.insts i' c') := by
  obtain ⟨M, hM, hs⟩ := hfits
  obtain ⟨s, c', C, G, hcode, hspec, hbl, hred, hsf, S, hsim⟩ :=
    dgas_of hD hlen hstop (steady_analyze tbl spec limit hlen) hplain hM hs
  have hs := hsim F env dyn clob mem g0 n hp hpc
  have hfin : (C.runG expCost env dyn clob mem g0 n).final = true := by
    revert hs hn
    generalize C.runG expCost env dyn clob mem g0 n = out
    generalize D.runG expCost env dyn clob mem g0 n = out'
    intro hn h
    cases out with
    | running k i cx g rd =>
      cases h (fun h => nomatch h)
      exact absurd rfl (hn _ _ _ _ _)
    | _ => rfl
  obtain ⟨k, i, c, tr, g, rd, d, hr, hd, h⟩ := goodC_paid G clob mem hw hc hsf (by rw [hbl]; exact hfit) hfin
  rw [hcode, hspec] at hr
  rw [hcode] at h
  refine ⟨k, i, c, tr, g, rd, d, hr, hd, h.imp (fun h => ⟨_, h, ?_⟩) id⟩
  generalize C.runG expCost env dyn clob mem g0 n = out at hs h ⊢
  generalize D.runG expCost env dyn clob mem g0 n = out' at hs ⊢
  have copies : Copies (parse tbl spec bytes).toProg.insts i (shiftIdx s.prog.blocks c'.redirects i) := by
    obtain ⟨e, he, he1, he2⟩ := S.base_shift hd
    obtain ⟨hf1, hf2⟩ := S.same _ _ _ _ hd he he1
    exact ⟨d, e, hd, he, he1, he2, hf1, hf2⟩
  cases h with
  | halted => cases hs (fun h => nomatch h); exact .halted copies
  | invalid => cases hs (fun h => nomatch h); exact .invalidJump
  | unknown _ h =>
    rcases h with rfl | ⟨cx, g', rd', rfl⟩
    · cases hs (fun h => nomatch h); exact .outOfGas
    · cases hs (fun h => nomatch h); exact .halted copies
  | failed _ h =>
    rcases h with rfl | ⟨f, rfl⟩ | ⟨_, rfl⟩
    · cases hs (fun h => nomatch h); exact .outOfGas
    · cases hs (fun h => nomatch h); exact .stackError
    · cases hs (fun h => nomatch h); exact .badImmediate copies
  | noGas _ h =>
    rcases h with rfl | ⟨f, rfl⟩
    · cases hs (fun h => nomatch h); exact .outOfGas
    · cases hs (fun h => nomatch h); exact .stackError

end forward

/-! ## Concrete programs -/

/-- A table in which STOP is free. -/
def freeStop (o : UInt8) : BitVec 16 := if o = op.STOP then 0 else 3

theorem demo_placeless_costs (insts : List InstData) : PlacelessCosts insts (demoDyn insts) := by
  intro k i j d e args hd he h1 _
  unfold demoDyn
  rw [hd, he]
  simp only [h1]

/-- `CALLDATASIZE; PUSH1 7; JUMPI; PUSH1 at; JUMP`, and at 7 and after it `JUMPDEST`, `rest`. -/
def twins (rest : List UInt8) : List UInt8 :=
  [0x36, 0x60, 7, 0x57, 0x60, UInt8.ofNat (8 + rest.length), 0x56] ++ (0x5b :: rest) ++ (0x5b :: rest)

/-- `PUSH1 7; GAS; EXP; PUSH0; SSTORE; STOP`: the cost of EXP is paid with the section, GAS and SSTORE read the counter. -/
def twinGas : List UInt8 := twins [0x60, 7, 0x5a, 0x0a, 0x5f, 0x55, 0x00]

theorem plain_of_all {tbl : UInt8 → BitVec 16} {spec : SpecId} {limit : Nat} {bytes : List UInt8}
    (hp : (analyzeBytes tbl spec limit bytes).1.insts.all plainCheck = true) (i : Nat) (d : InstData)
    (h : (analyzeBytes tbl spec limit bytes).1.insts[i]? = some d) (_ : d.flags.deadCode = false) : Plain d :=
  plain_of_check (List.all_eq_true.1 hp d (List.mem_of_getElem? h))

theorem redirects_of {o : WOpts} {tbl : UInt8 → BitVec 16} {spec : SpecId} {limit : Nat} {bytes : List UInt8}
    {r : Redirects} (h : (compileDedup o tbl spec limit bytes).map (·.redirects) = some r) :
    ∃ D, compileDedup o tbl spec limit bytes = some D ∧ D.redirects = r :=
  Option.map_eq_some_iff.1 h

/-- With empty call data, the EVM jumps to 15 with 985 left of 1000; the compiled program is at the block at 7. -/
example : ∃ D n cx, compileDedup { dse := true, inspect := false } freeStop SpecId.CANCUN 1000 twinGas = some D ∧
    D.runG demoExp (demoEnv (parse freeStop SpecId.CANCUN twinGas).toProg.insts) (demoDyn (parse freeStop SpecId.CANCUN twinGas).toProg.insts)
      (fun _ _ => 7) (fun _ => 9) 1000 n = .running 5 5 cx 985 [] ∧ Holds cx [] := by
  obtain ⟨D, hD, hr⟩ := redirects_of (o := { dse := true, inspect := false }) (tbl := freeStop) (spec := SpecId.CANCUN)
    (limit := 1000) (bytes := twinGas) (r := [(12, 5)]) (by decide +kernel)
  obtain ⟨n, cx, h1, h2, _⟩ := C71_enters_partial hD (by decide) rfl (plain_of_all (by decide +kernel))
    (fun _ _ => 7) (fun _ => 9) (demo_world _) (demo_placeless _) (demo_costs _) (demo_placeless_costs _)
    ⟨100, demoExp_le, by decide +kernel⟩
    (demo_gas_run (g0 := 1000) (n := 5) (k := 5) (i := 12) (c := []) (tr := []) (gl := 985) (rd := []) (by decide)
      (by decide +kernel))
    (b := (12, 19)) (by decide +kernel) rfl
  rw [hr] at h1
  exact ⟨D, n, cx, hD, h1, h2⟩

/-- It stops with 820 left; it read 976 and 920. -/
example : ∃ D n j cx, compileDedup { dse := true, inspect := false } freeStop SpecId.CANCUN 1000 twinGas = some D ∧
    D.runG demoExp (demoEnv (parse freeStop SpecId.CANCUN twinGas).toProg.insts) (demoDyn (parse freeStop SpecId.CANCUN twinGas).toProg.insts)
      (fun _ _ => 7) (fun _ => 9) 1000 n = .halted j cx 820 [(10, 920), (7, 976)] := by
  obtain ⟨D, hD, hr⟩ := redirects_of (o := { dse := true, inspect := false }) (tbl := freeStop) (spec := SpecId.CANCUN)
    (limit := 1000) (bytes := twinGas) (r := [(12, 5)]) (by decide +kernel)
  have hd : (parse freeStop SpecId.CANCUN twinGas).toProg.insts[18]?.map
      (fun d => (d.opcode, d.stackIo, d.baseGas, d.flags.disabled, d.flags.unknown)) =
      some (0, (0, 0), 0, false, false) := by decide +kernel
  obtain ⟨d, hd, he⟩ := Option.map_eq_some_iff.1 hd
  simp only [Prod.mk.injEq] at he
  have hio : d.stackIo = (0, 0) := he.2.1
  have hdyn : demoDyn (parse freeStop SpecId.CANCUN twinGas).toProg.insts 11 18 [] = 0 := by decide +kernel
  obtain ⟨n, j, cx, h, _⟩ := C71_halts_partial hD (by decide) rfl (plain_of_all (by decide +kernel))
    (fun _ _ => 7) (fun _ => 9) (demo_world _) (demo_placeless _) (demo_costs _) (demo_placeless_costs _)
    ⟨100, demoExp_le, by decide +kernel⟩
    (demo_gas_run (g0 := 1000) (n := 11) (k := 11) (i := 18) (c := []) (tr := [.effect [0, 0], .effect []]) (gl := 820) (rd := [(10, 920), (7, 976)]) (by decide)
      (by decide +kernel))
    hd (.inr (.inr (by rw [he.1]; decide))) (by rw [he.2.2.2.1, he.2.2.2.2]; decide) (by rw [hio]; decide)
    (by rw [he.2.2.1, hio]; show 0 + demoDyn _ 11 18 [] ≤ 820; rw [hdyn]; decide)
  rw [he.2.2.1, hio] at h
  have : 820 - 0 - demoDyn (parse freeStop SpecId.CANCUN twinGas).toProg.insts 11 18 [] = 820 := by rw [hdyn]
  exact ⟨D, n, j, cx, hD, by rw [← this]; exact h⟩

/-- Started with 100, it cannot pay for its SSTORE. -/
example : ∃ D n, compileDedup { dse := true, inspect := false } freeStop SpecId.CANCUN 1000 twinGas = some D ∧
    (D.runG demoExp (demoEnv (parse freeStop SpecId.CANCUN twinGas).toProg.insts) (demoDyn (parse freeStop SpecId.CANCUN twinGas).toProg.insts)
      (fun _ _ => 7) (fun _ => 9) 100 n = .outOfGas ∨
     ∃ f, D.runG demoExp (demoEnv (parse freeStop SpecId.CANCUN twinGas).toProg.insts) (demoDyn (parse freeStop SpecId.CANCUN twinGas).toProg.insts)
      (fun _ _ => 7) (fun _ => 9) 100 n = .stackError f) := by
  obtain ⟨D, hD, hr⟩ := redirects_of (o := { dse := true, inspect := false }) (tbl := freeStop) (spec := SpecId.CANCUN)
    (limit := 1000) (bytes := twinGas) (r := [(12, 5)]) (by decide +kernel)
  have hd : (parse freeStop SpecId.CANCUN twinGas).toProg.insts[17]?.map
      (fun d => (d.stackIo, d.baseGas, d.flags.disabled, d.flags.unknown)) =
      some ((2, 0), 0, false, false) := by decide +kernel
  obtain ⟨d, hd, he⟩ := Option.map_eq_some_iff.1 hd
  simp only [Prod.mk.injEq] at he
  have hio : d.stackIo = (2, 0) := he.1
  have hdyn : demoDyn (parse freeStop SpecId.CANCUN twinGas).toProg.insts 10 17 [0, 0] = 100 := by decide +kernel
  obtain ⟨n, h⟩ := C71_outOfGas_partial hD (by decide) rfl (plain_of_all (by decide +kernel))
    (fun _ _ => 7) (fun _ => 9) (demo_world _) (demo_placeless _) (demo_costs _) (demo_placeless_costs _)
    ⟨100, demoExp_le, by decide +kernel⟩
    (demo_gas_run (g0 := 100) (n := 10) (k := 10) (i := 17) (c := [0, 0]) (tr := [.effect []]) (gl := 20) (rd := [(7, 76)]) (by decide)
      (by decide +kernel))
    hd (by decide +kernel)
    ⟨by rw [he.2.2.1, he.2.2.2]; decide, .inr ⟨by rw [hio]; decide, by rw [hio]; decide, by
      rw [he.2.1, hio]; show 20 < 0 + demoDyn _ 10 17 [0, 0]; rw [hdyn]; decide⟩⟩
  exact ⟨D, n, hD, h⟩

/-- `PUSH0; PUSH0; SSTORE; 0x0c` in both blocks: an unknown opcode after a store. -/
example : ∃ D n, compileDedup { dse := true, inspect := false } freeStop SpecId.CANCUN 1000 (twins [0x5f, 0x5f, 0x55, 0x0c]) = some D ∧
    (D.runG demoExp (demoEnv (parse freeStop SpecId.CANCUN (twins [0x5f, 0x5f, 0x55, 0x0c])).toProg.insts) (demoDyn (parse freeStop SpecId.CANCUN (twins [0x5f, 0x5f, 0x55, 0x0c])).toProg.insts)
      (fun _ _ => 7) (fun _ => 9) 1000 n = .outOfGas ∨
     ∃ j cx g rd, D.runG demoExp (demoEnv (parse freeStop SpecId.CANCUN (twins [0x5f, 0x5f, 0x55, 0x0c])).toProg.insts) (demoDyn (parse freeStop SpecId.CANCUN (twins [0x5f, 0x5f, 0x55, 0x0c])).toProg.insts)
      (fun _ _ => 7) (fun _ => 9) 1000 n = .halted j cx g rd) := by
  obtain ⟨D, hD, hr⟩ := redirects_of (o := { dse := true, inspect := false }) (tbl := freeStop) (spec := SpecId.CANCUN)
    (limit := 1000) (bytes := (twins [0x5f, 0x5f, 0x55, 0x0c])) (r := [(10, 5)]) (by decide +kernel)
  have hd : (parse freeStop SpecId.CANCUN (twins [0x5f, 0x5f, 0x55, 0x0c])).toProg.insts[14]?.map
      (fun d => (d.stackIo, d.flags.unknown)) = some ((0, 0), true) := by decide +kernel
  obtain ⟨d, hd, he⟩ := Option.map_eq_some_iff.1 hd
  simp only [Prod.mk.injEq] at he
  have hio : d.stackIo = (0, 0) := he.1
  obtain ⟨n, h⟩ := C71_unknown_partial hD (by decide) rfl (plain_of_all (by decide +kernel))
    (fun _ _ => 7) (fun _ => 9) (demo_world _) (demo_placeless _) (demo_costs _) (demo_placeless_costs _)
    ⟨100, demoExp_le, by decide +kernel⟩
    (demo_gas_run (g0 := 1000) (n := 9) (k := 9) (i := 14) (c := []) (tr := [.effect [0, 0]]) (gl := 876) (rd := [(8, 976)]) (by decide)
      (by decide +kernel))
    hd (.inr he.2) (by rw [hio]; decide)
  refine ⟨D, n, hD, ?_⟩
  rcases h with h | ⟨j, cx, g, rd, h, _⟩
  · exact .inl h
  · exact .inr ⟨j, cx, g, rd, h⟩

/-- `PUSH0; PUSH0; SSTORE; PUSH0; JUMP` in both blocks: an invalid jump. -/
example : ∃ D n, compileDedup { dse := true, inspect := false } freeStop SpecId.CANCUN 1000 (twins [0x5f, 0x5f, 0x55, 0x5f, 0x56]) = some D ∧
    D.runG demoExp (demoEnv (parse freeStop SpecId.CANCUN (twins [0x5f, 0x5f, 0x55, 0x5f, 0x56])).toProg.insts) (demoDyn (parse freeStop SpecId.CANCUN (twins [0x5f, 0x5f, 0x55, 0x5f, 0x56])).toProg.insts)
      (fun _ _ => 7) (fun _ => 9) 1000 n = .invalidJump := by
  obtain ⟨D, hD, hr⟩ := redirects_of (o := { dse := true, inspect := false }) (tbl := freeStop) (spec := SpecId.CANCUN)
    (limit := 1000) (bytes := (twins [0x5f, 0x5f, 0x55, 0x5f, 0x56])) (r := [(11, 5)]) (by decide +kernel)
  have hd : (parse freeStop SpecId.CANCUN (twins [0x5f, 0x5f, 0x55, 0x5f, 0x56])).toProg.insts[16]?.map
      (fun d => (d.opcode, d.stackIo, decide (Halts d), d.baseGas)) = some (0x56, (1, 0), false, 3) := by decide +kernel
  obtain ⟨d, hd, he⟩ := Option.map_eq_some_iff.1 hd
  simp only [Prod.mk.injEq] at he
  have hio : d.stackIo = (1, 0) := he.2.1
  have hdyn : demoDyn (parse freeStop SpecId.CANCUN (twins [0x5f, 0x5f, 0x55, 0x5f, 0x56])).toProg.insts 10 16 [0] = 0 := by decide +kernel
  obtain ⟨n, h⟩ := C71_invalid_partial hD (by decide) rfl (plain_of_all (by decide +kernel))
    (fun _ _ => 7) (fun _ => 9) (demo_world _) (demo_placeless _) (demo_costs _) (demo_placeless_costs _)
    ⟨100, demoExp_le, by decide +kernel⟩
    (demo_gas_run (g0 := 1000) (n := 10) (k := 10) (i := 16) (c := [0]) (tr := [.effect [0, 0]]) (gl := 873) (rd := [(8, 976)]) (by decide)
      (by decide +kernel))
    hd (by simpa using he.2.2.1) (.inl (by rw [he.1]; rfl)) (by rw [hio]; decide)
    (by unfold evmNext; rw [he.1]; decide +kernel)
    (by rw [he.2.2.2, hio]; show 3 + demoDyn _ 10 16 [0] ≤ 873; rw [hdyn]; decide)
  exact ⟨D, n, hD, h⟩

/-- `PUSH0; PUSH0; SSTORE; POP; STOP` in both blocks: a stack underflow. -/
example : ∃ D n, compileDedup { dse := true, inspect := false } freeStop SpecId.CANCUN 1000 (twins [0x5f, 0x5f, 0x55, 0x50, 0x00]) = some D ∧
    (D.runG demoExp (demoEnv (parse freeStop SpecId.CANCUN (twins [0x5f, 0x5f, 0x55, 0x50, 0x00])).toProg.insts) (demoDyn (parse freeStop SpecId.CANCUN (twins [0x5f, 0x5f, 0x55, 0x50, 0x00])).toProg.insts)
      (fun _ _ => 7) (fun _ => 9) 1000 n = .outOfGas ∨
     ∃ f, D.runG demoExp (demoEnv (parse freeStop SpecId.CANCUN (twins [0x5f, 0x5f, 0x55, 0x50, 0x00])).toProg.insts) (demoDyn (parse freeStop SpecId.CANCUN (twins [0x5f, 0x5f, 0x55, 0x50, 0x00])).toProg.insts)
      (fun _ _ => 7) (fun _ => 9) 1000 n = .stackError f) := by
  obtain ⟨D, hD, hr⟩ := redirects_of (o := { dse := true, inspect := false }) (tbl := freeStop) (spec := SpecId.CANCUN)
    (limit := 1000) (bytes := (twins [0x5f, 0x5f, 0x55, 0x50, 0x00])) (r := [(11, 5)]) (by decide +kernel)
  have hd : (parse freeStop SpecId.CANCUN (twins [0x5f, 0x5f, 0x55, 0x50, 0x00])).toProg.insts[15]?.map
      (fun d => (d.stackIo, d.opcode)) = some ((1, 0), 0x50) := by decide +kernel
  obtain ⟨d, hd, he⟩ := Option.map_eq_some_iff.1 hd
  simp only [Prod.mk.injEq] at he
  have hio : d.stackIo = (1, 0) := he.1
  obtain ⟨n, h⟩ := C71_fails_alike_partial hD (by decide) rfl (plain_of_all (by decide +kernel))
    (fun _ _ => 7) (fun _ => 9) (demo_world _) (demo_placeless _) (demo_costs _) (demo_placeless_costs _)
    ⟨100, demoExp_le, by decide +kernel⟩
    (demo_gas_run (g0 := 1000) (n := 9) (k := 9) (i := 15) (c := []) (tr := [.effect [0, 0]]) (gl := 876) (rd := [(8, 976)]) (by decide)
      (by decide +kernel))
    hd (by decide +kernel) (.inl (.inl (by rw [hio]; decide)))
  refine ⟨D, n, hD, ?_⟩
  rcases h with h | h | ⟨⟨_, h⟩, _⟩
  · exact .inl h
  · exact .inr h
  · rw [he.2] at h
    rcases h with ⟨h, _⟩ | ⟨h, _⟩ <;> exact absurd h (by decide)

/-- What a program that has halted has shown and how much gas it has left. -/
def GOut.haltShown : GOut F → Option (List (Obs F) × Nat)
  | .halted _ cx g _ => some (effects (shown cx.trace), g)
  | _ => none

/-- `twinGas` has ended after three blocks, so `C71_outcome_partial` speaks about it. -/
example : ∃ D, compileDedup { dse := true, inspect := false } freeStop SpecId.CANCUN 1000 twinGas = some D ∧
    (∀ b ∈ (analyzeBytes freeStop SpecId.CANCUN 1000 twinGas).1.blocks,
      highest ((((parse freeStop SpecId.CANCUN twinGas).toProg.insts.drop b.1).take (b.2 - b.1)).map (·.stackIo)) 0 -
        lowest ((((parse freeStop SpecId.CANCUN twinGas).toProg.insts.drop b.1).take (b.2 - b.1)).map (·.stackIo)) 0 ≤ 32767) ∧
    ∀ k i cx g rd, D.runG demoExp (demoEnv (parse freeStop SpecId.CANCUN twinGas).toProg.insts) (demoDyn (parse freeStop SpecId.CANCUN twinGas).toProg.insts)
      (fun _ _ => 7) (fun _ => 9) 1000 3 ≠ .running k i cx g rd := by
  have h : (compileDedup { dse := true, inspect := false } freeStop SpecId.CANCUN 1000 twinGas).map (fun D =>
      (D.runG demoExp (demoEnv (parse freeStop SpecId.CANCUN twinGas).toProg.insts) (demoDyn (parse freeStop SpecId.CANCUN twinGas).toProg.insts)
      (fun _ _ => 7) (fun _ => 9) 1000 3).final) = some true := by decide +kernel
  obtain ⟨D, hD, h⟩ := Option.map_eq_some_iff.1 h
  refine ⟨D, hD, by decide +kernel, fun k i cx g rd hx => ?_⟩
  rw [hx] at h
  cases h

/-! ## The restriction to unambiguous immediates is necessary -/

theorem drunG_final {D : DCompiled} {expCost : Word → Nat} {env : Env F} {dyn : Nat → Nat → List Word → Nat}
    {clob : Nat → Int → Word} {mem : Int → Word} {g0 n : Nat}
    (h : (D.runG expCost env dyn clob mem g0 n).final = true) (m : Nat) :
    D.runG expCost env dyn clob mem g0 (n + m) = D.runG expCost env dyn clob mem g0 n := by
  induction m with
  | zero => rfl
  | succ m ih =>
    show (match D.runG expCost env dyn clob mem g0 (n + m) with
      | .running k i cx g rd => D.gasBlock expCost env dyn clob k i cx g rd
      | o => o) = _
    rw [ih]
    revert h
    generalize D.runG expCost env dyn clob mem g0 n = out
    intro h
    cases out <;> first | rfl | cases h

theorem drunG_final_eq {D : DCompiled} {expCost : Word → Nat} {env : Env F} {dyn : Nat → Nat → List Word → Nat}
    {clob : Nat → Int → Word} {mem : Int → Word} {g0 n m : Nat}
    (h : (D.runG expCost env dyn clob mem g0 n).final = true) (h' : (D.runG expCost env dyn clob mem g0 m).final = true) :
    D.runG expCost env dyn clob mem g0 n = D.runG expCost env dyn clob mem g0 m := by
  rcases Nat.le_total n m with hl | hl
  · rw [← drunG_final h (m - n), Nat.add_sub_cancel' hl]
  · rw [← drunG_final h' (n - m), Nat.add_sub_cancel' hl]

/-- C71 fails: with empty call data, `clashRun` has 949 of 1000 left in the EVM, and 958 when compiled, which
takes two POPs and a DUP1 for an immediate. -/
theorem C71_halts_fails : ¬ C71_halts := by
  intro h
  have h1 : (compileDedup { dse := true, inspect := false } freeStop SpecId.CANCUN 1000 clashRun).map (fun D =>
      (D.runG demoExp (demoEnv (parse freeStop SpecId.CANCUN clashRun).toProg.insts) (demoDyn (parse freeStop SpecId.CANCUN clashRun).toProg.insts)
      (fun _ _ => 7) (fun _ => 9) 1000 3).haltShown.map (·.2)) = some (some 958) := by decide +kernel
  obtain ⟨D, hD, h1⟩ := Option.map_eq_some_iff.1 h1
  have hd : (parse freeStop SpecId.CANCUN clashRun).toProg.insts[23]?.map
      (fun d => (d.opcode, d.stackIo, d.baseGas, d.flags.disabled, d.flags.unknown)) =
      some (0xf3, (2, 0), 3, false, false) := by decide +kernel
  obtain ⟨d, hd, he⟩ := Option.map_eq_some_iff.1 hd
  simp only [Prod.mk.injEq] at he
  have hio : d.stackIo = (2, 0) := he.2.1
  have hdyn : demoDyn (parse freeStop SpecId.CANCUN clashRun).toProg.insts 16 23 [0, 0x20] = 0 := by decide +kernel
  obtain ⟨n, j, cx, h2, _⟩ := h (List Word) freeStop SpecId.CANCUN 1000 clashRun _ D hD (by decide) rfl _ _ demoExp
    (fun _ _ => 7) (fun _ => 9) (demo_world _) (demo_placeless _) (demo_costs _) (demo_placeless_costs _) 1000 16 23
    [0, 0x20, 1] [.effect [0, 1]] 952 [] d
    (demo_gas_run (n := 16) (by decide) (by decide +kernel)) hd (.inr (.inr (by rw [he.1]; decide)))
    (by rw [he.2.2.2.1, he.2.2.2.2]; decide) (by rw [hio]; decide)
    (by rw [he.2.2.1, hio]; show 3 + demoDyn _ 16 23 [0, 0x20] ≤ 952; rw [hdyn]; decide)
  rw [he.2.2.1, hio] at h2
  have hx : 952 - 3 - demoDyn (parse freeStop SpecId.CANCUN clashRun).toProg.insts 16 23 [0, 0x20] = 949 := by rw [hdyn]
  have h2 : D.runG demoExp (demoEnv (parse freeStop SpecId.CANCUN clashRun).toProg.insts) (demoDyn (parse freeStop SpecId.CANCUN clashRun).toProg.insts)
      (fun _ _ => 7) (fun _ => 9) 1000 n = .halted j cx 949 [] := by rw [← hx]; exact h2
  have h3 : (D.runG demoExp (demoEnv (parse freeStop SpecId.CANCUN clashRun).toProg.insts) (demoDyn (parse freeStop SpecId.CANCUN clashRun).toProg.insts)
      (fun _ _ => 7) (fun _ => 9) 1000 3).final = true := by
    revert h1
    generalize D.runG demoExp (demoEnv (parse freeStop SpecId.CANCUN clashRun).toProg.insts) (demoDyn (parse freeStop SpecId.CANCUN clashRun).toProg.insts)
      (fun _ _ => 7) (fun _ => 9) 1000 3 = x
    intro h1
    cases x <;> first | rfl | cases h1
  have := drunG_final_eq h3 (by rw [h2]; rfl : (D.runG _ _ _ _ _ _ n).final = true)
  rw [this, h2] at h1
  revert h1
  show ¬ (some 949 = some 958)
  decide

end Verif
