import Verif.Props.Whole
import Verif.Props.DedupPass
import Verif.Lemmas.SteadyOf
/-!
# C60: a whole compiled program with deduplicated blocks does what the EVM does

`compileDedup` is `compileBytes` with the deduplication of blocks between the control-flow analysis and the
translation; `DCompiled.run n` executes `n` blocks of the result, looking up the redirects at every transfer. The EVM
executes the parsed instructions one by one (`Spec.Run`), in a world that answers alike to the same instruction at
different places (`Spec.Placeless`). Statements as in C54, except that the compiled program may be at another copy of
the instruction.

All theorems here are partial: besides what C54 leaves out, no immediate of a live instruction is stored at a place
whose low byte is ambiguous in the fingerprint (`Plain`, see C18).
-/

namespace Verif
open Spec
variable {F : Type}

/-- Two places holding the same instruction, apart from its immediate. -/
structure Copies (base : List InstData) (i j : Nat) : Prop where
  copy : ∃ d e, base[i]? = some d ∧ base[j]? = some e ∧ e.opcode = d.opcode ∧ e.stackIo = d.stackIo ∧
    e.flags.disabled = d.flags.disabled ∧ e.flags.unknown = d.flags.unknown

/-- Two ends of a program that differ at most in the copy of the instruction. -/
inductive EndCopy (base : List InstData) : COut F → COut F → Prop
  | halted {i j : Nat} {cx : SCx (Option F)} : Copies base i j → EndCopy base (.halted i cx) (.halted j cx)
  | invalidJump {cx : SCx (Option F)} : EndCopy base (.invalidJump cx) (.invalidJump cx)
  | stackError {f : StackFail} {cx : SCx (Option F)} : EndCopy base (.stackError f cx) (.stackError f cx)
  | badImmediate {i j : Nat} {cx : SCx (Option F)} : Copies base i j →
      EndCopy base (.badImmediate i cx) (.badImmediate j cx)

/-- C60, full statement for executions that halt and take at most 64 words to a JUMPDEST or behind a JUMPI. -/
def C60_halts : Prop :=
  ∀ (F : Type) (g : UInt8 → BitVec 16) (spec : SpecId) (limit : Nat) (bytes : List UInt8) (o : WOpts) (D : DCompiled),
    compileDedup o g spec limit bytes = some D → bytes.length ≤ 2 ^ 31 →
    ∀ (env : Env F) (clob : Nat → Int → Word) (mem : Int → Word), World (parse g spec bytes).toProg.insts env →
    Placeless (parse g spec bytes).toProg.insts env →
    ∀ k i c tr d, Run (parse g spec bytes).toCode (parse g spec bytes).toProg.insts env
        (shallow (parse g spec bytes).toProg.insts) k i c tr →
      (parse g spec bytes).toProg.insts[i]? = some d → Halts d → d.stackIo.1 ≤ c.length →
      ∃ n j cx, D.run env clob mem n = .halted j cx ∧ Copies (parse g spec bytes).toProg.insts i j ∧
        shown cx.trace = observed env k i d c ++ tr ∧ cx.lenVar = (c.drop d.stackIo.1).length ∧
        ((o.dse = true → o.inspect = true) → Holds cx (c.drop d.stackIo.1))

section forward
variable {g : UInt8 → BitVec 16} {spec : SpecId} {limit : Nat} {bytes : List UInt8} {o : WOpts} {D : DCompiled}
  (hD : compileDedup o g spec limit bytes = some D) (hlen : bytes.length ≤ 2 ^ 31)
  (hplain : ∀ (i : Nat) d, (analyzeBytes g spec limit bytes).1.insts[i]? = some d → d.flags.deadCode = false → Plain d)
  {env : Env F} (clob : Nat → Int → Word) (mem : Int → Word) (hw : World (parse g spec bytes).toProg.insts env)
  (hp : Placeless (parse g spec bytes).toProg.insts env)
include hD hlen hplain hw hp

section runs
variable {k i : Nat} {c : List Word} {tr : List (Obs F)} {d : InstData}
  (hr : Run (parse g spec bytes).toCode (parse g spec bytes).toProg.insts env
    (shallow (parse g spec bytes).toProg.insts) k i c tr)
include hr

/-- C60, running: whenever the EVM is at the first instruction of a block, the compiled program is at the block that
replaces it, after as many instructions, holding the same stack and with the same observations. -/
theorem C60_enters_partial {b : Nat × Nat} (hb : b ∈ (analyzeBytes g spec limit bytes).1.blocks) (hi : b.1 = i) :
    ∃ n cx, D.run env clob mem n = .running k (effective D.redirects i) cx ∧ Holds cx c ∧ shown cx.trace = tr := by
  obtain ⟨s, c', C, G, hcode, hbl, hs, hred, hprog, S, hsim⟩ := dcompiled_of hD hlen (steady_analyze g spec limit hlen) hplain
  rw [← hcode] at hr
  obtain ⟨n, cx, h1, h2, h3⟩ := G.enters (clob := clob) (mem := mem) (hw.x C.ai) hr (by rw [hbl]; exact hb) hi
  have hn := hsim F env clob mem n hp (by rw [h1]; exact fun h => nomatch h)
  rw [h1] at hn
  refine ⟨n, cx, ?_, h2, h3⟩
  generalize D.run env clob mem n = out at hn ⊢
  cases hn
  rw [hred]

/-- C60, halting: where the EVM halts, so does the compiled program, at a copy of the instruction, with the same
observations and the same height of the stack; the stack is the EVM's if it is to be inspected or dead stores are
kept. -/
theorem C60_halts_partial (hd : (parse g spec bytes).toProg.insts[i]? = some d) (hh : Halts d)
    (hin : d.stackIo.1 ≤ c.length) :
    ∃ n j cx, D.run env clob mem n = .halted j cx ∧ Copies (parse g spec bytes).toProg.insts i j ∧
      shown cx.trace = observed env k i d c ++ tr ∧ cx.lenVar = (c.drop d.stackIo.1).length ∧
      ((o.dse = true → o.inspect = true) → Holds cx (c.drop d.stackIo.1)) := by
  obtain ⟨s, c', C, G, hcode, hbl, hs, hred, hprog, S, hsim⟩ := dcompiled_of hD hlen (steady_analyze g spec limit hlen) hplain
  rw [← hcode] at hr
  obtain ⟨n, cx, h1, h2⟩ := G.halts (clob := clob) (mem := mem) (hw.x C.ai) hr hd hh hin
  have hn := hsim F env clob mem n hp (by rw [h1]; exact fun h => nomatch h)
  rw [h1] at hn
  obtain ⟨e, he, he1, he2⟩ := S.base_shift hd
  obtain ⟨hf1, hf2⟩ := S.same _ _ _ _ hd he he1
  refine ⟨n, _, cx, ?_, ⟨d, e, hd, he, he1, he2, hf1, hf2⟩, h2⟩
  generalize D.run env clob mem n = out at hn ⊢
  cases hn
  rfl

/-- C60, invalid jumps: where the EVM fails with an invalid jump, so does the compiled program, with the same
observations. -/
theorem C60_invalid_partial (hd : (parse g spec bytes).toProg.insts[i]? = some d) (hh : ¬ Halts d)
    (hj : d.opcode.toNat = 0x56 ∨ d.opcode.toNat = 0x57) (hin : d.stackIo.1 ≤ c.length)
    (hn : evmNext (parse g spec bytes).toCode i d c = none) :
    ∃ n cx, D.run env clob mem n = .invalidJump cx ∧ shown cx.trace = tr := by
  obtain ⟨s, c', C, G, hcode, hbl, hs, hred, hprog, S, hsim⟩ := dcompiled_of hD hlen (steady_analyze g spec limit hlen) hplain
  rw [← hcode] at hr hn
  have hjump : d.isJump = true := by
    unfold InstData.isJump
    rcases hj with h | h
    · rw [toNat_eq (k := 0x56) (by omega) h]; rfl
    · rw [toNat_eq (k := 0x57) (by omega) h]; rfl
  obtain ⟨n, cx, h1, h2⟩ := G.invalid (clob := clob) (mem := mem) (hw.x C.ai) hr hd hh hjump hin hn
  have hn := hsim F env clob mem n hp (by rw [h1]; exact fun h => nomatch h)
  rw [h1] at hn
  refine ⟨n, cx, ?_, h2⟩
  generalize D.run env clob mem n = out at hn ⊢
  cases hn
  rfl

/-- C60, stack errors: where the EVM fails with a stack error, the compiled program fails with a stack error, having
done nothing that the EVM has not done; it reports an underflow if the EVM does. For blocks whose heights span at
most 32767. -/
theorem C60_stack_partial (hd : (parse g spec bytes).toProg.insts[i]? = some d)
    (hfit : ∀ b ∈ (analyzeBytes g spec limit bytes).1.blocks,
      highest ((((parse g spec bytes).toProg.insts.drop b.1).take (b.2 - b.1)).map (·.stackIo)) 0 -
        lowest ((((parse g spec bytes).toProg.insts.drop b.1).take (b.2 - b.1)).map (·.stackIo)) 0 ≤ 32767)
    (hf : c.length < d.stackIo.1 ∨ 1024 < c.length - d.stackIo.1 + d.stackIo.2) :
    ∃ n f cx, D.run env clob mem n = .stackError f cx ∧ shown cx.trace <:+ tr ∧
      (c.length < d.stackIo.1 → f = .underflow) := by
  obtain ⟨s, c', C, G, hcode, hbl, hs, hred, hprog, S, hsim⟩ := dcompiled_of hD hlen (steady_analyze g spec limit hlen) hplain
  rw [← hcode] at hr
  obtain ⟨n, f, cx, h1, h2, h3⟩ := G.stack (clob := clob) (mem := mem) (hw.x C.ai) hr hd (G.fits (by rw [hbl]; exact hfit)) hf
  have hn := hsim F env clob mem n hp (by rw [h1]; exact fun h => nomatch h)
  rw [h1] at hn
  refine ⟨n, f, cx, ?_, h2, h3⟩
  generalize D.run env clob mem n = out at hn ⊢
  cases hn
  rfl

/-- C60, undecodable immediates: where the EVM meets an immediate of DUPN, SWAPN or EXCHANGE without meaning, the
compiled program fails at a copy of it with the same observations, or has failed before with a stack error of the
section. For blocks whose heights span at most 32767. -/
theorem C60_immediate_partial (hd : (parse g spec bytes).toProg.insts[i]? = some d)
    (hfit : ∀ b ∈ (analyzeBytes g spec limit bytes).1.blocks,
      highest ((((parse g spec bytes).toProg.insts.drop b.1).take (b.2 - b.1)).map (·.stackIo)) 0 -
        lowest ((((parse g spec bytes).toProg.insts.drop b.1).take (b.2 - b.1)).map (·.stackIo)) 0 ≤ 32767)
    (hf : Undecodable (parse g spec bytes).toCode i d) :
    ∃ n, (∃ j cx, D.run env clob mem n = .badImmediate j cx ∧ Copies (parse g spec bytes).toProg.insts i j ∧
        shown cx.trace = tr) ∨
      ∃ f cx, D.run env clob mem n = .stackError f cx ∧ shown cx.trace <:+ tr := by
  obtain ⟨s, c', C, G, hcode, hbl, hs, hred, hprog, S, hsim⟩ := dcompiled_of hD hlen (steady_analyze g spec limit hlen) hplain
  rw [← hcode] at hr hf
  obtain ⟨n, ⟨cx, h1, h2⟩ | ⟨f, cx, h1, h2⟩⟩ :=
    G.immediate (clob := clob) (mem := mem) (hw.x C.ai) hr hd (G.fits (by rw [hbl]; exact hfit)) (undecodable_bad.2 hf)
  · have hn := hsim F env clob mem n hp (by rw [h1]; exact fun h => nomatch h)
    rw [h1] at hn
    obtain ⟨e, he, he1, he2⟩ := S.base_shift hd
    obtain ⟨hf1, hf2⟩ := S.same _ _ _ _ hd he he1
    refine ⟨n, .inl ⟨_, cx, ?_, ⟨d, e, hd, he, he1, he2, hf1, hf2⟩, h2⟩⟩
    generalize D.run env clob mem n = out at hn ⊢
    cases hn
    rfl
  · have hn := hsim F env clob mem n hp (by rw [h1]; exact fun h => nomatch h)
    rw [h1] at hn
    refine ⟨n, .inr ⟨f, cx, ?_, h2⟩⟩
    generalize D.run env clob mem n = out at hn ⊢
    cases hn
    rfl

end runs

/-- C60, the other direction: if the compiled program has ended, then so does an execution of the EVM, in the same way
and with the same observations, up to the copy of the instruction — or the EVM's execution takes more than 64 words
to a JUMPDEST or behind a JUMPI, of which the theorems say nothing. In particular the compiled program never runs into
a block that was removed. -/
theorem C60_outcome_partial
    (hfit : ∀ b ∈ (analyzeBytes g spec limit bytes).1.blocks,
      highest ((((parse g spec bytes).toProg.insts.drop b.1).take (b.2 - b.1)).map (·.stackIo)) 0 -
        lowest ((((parse g spec bytes).toProg.insts.drop b.1).take (b.2 - b.1)).map (·.stackIo)) 0 ≤ 32767)
    {n : Nat} (hn : ∀ k i cx, D.run env clob mem n ≠ .running k i cx) :
    ∃ k i c tr d, Run (parse g spec bytes).toCode (parse g spec bytes).toProg.insts env
        (shallow (parse g spec bytes).toProg.insts) k i c tr ∧
      (parse g spec bytes).toProg.insts[i]? = some d ∧
      ((∃ out, Outcome (parse g spec bytes).toCode env k i d c tr out ∧
          EndCopy (parse g spec bytes).toProg.insts out (D.run env clob mem n)) ∨
       ∃ i' c', Step (parse g spec bytes).toCode (parse g spec bytes).toProg.insts i c i' c' ∧
         Follows (parse g spec bytes).toCode env k i d c c' ∧
         ¬ shallow (parse g spec bytes).toProg.insts i' c') := by
  obtain ⟨s, c', C, G, hcode, hbl, hs, hred, hprog, S, hsim⟩ := dcompiled_of hD hlen (steady_analyze g spec limit hlen) hplain
  have hfin : (C.run env clob mem n).final = true := by
    have h := hsim F env clob mem n hp
    revert h hn
    generalize C.run env clob mem n = out
    generalize D.run env clob mem n = out'
    intro hn h
    cases out with
    | running k i cx =>
      cases h (fun h => nomatch h)
      exact absurd rfl (hn _ _ _)
    | _ => rfl
  rw [← hcode]
  obtain ⟨k, i, c, tr, d, hr, hd, h⟩ := goodC_outcome G clob mem hw (by rw [hbl]; exact hfit) hfin
  refine ⟨k, i, c, tr, d, hr, hd, h.imp (fun h => ⟨_, h, ?_⟩) id⟩
  have hs := hsim F env clob mem n hp
  generalize C.run env clob mem n = out at hs h hfin ⊢
  generalize D.run env clob mem n = out' at hs ⊢
  have copies : Copies (parse g spec bytes).toProg.insts i (shiftIdx s.prog.blocks c'.redirects i) := by
    obtain ⟨e, he, he1, he2⟩ := S.base_shift hd
    obtain ⟨hf1, hf2⟩ := S.same _ _ _ _ hd he he1
    exact ⟨d, e, hd, he, he1, he2, hf1, hf2⟩
  cases h with
  | halted => cases hs (fun h => nomatch h); exact .halted copies
  | invalid => cases hs (fun h => nomatch h); exact .invalidJump
  | stack => cases hs (fun h => nomatch h); exact .stackError
  | immediate => cases hs (fun h => nomatch h); exact .badImmediate copies
  | early => cases hs (fun h => nomatch h); exact .stackError

end forward

/-! ## A concrete program -/

theorem demo_placeless (insts : List InstData) : Placeless insts (demoEnv insts) := by
  intro k i j d e args hd he h1 h2
  unfold demoEnv
  rw [hd, he]
  simp only [h1, h2]

/-- `CALLDATASIZE; PUSH1 7; JUMPI; PUSH1 13; JUMP`, and at 7 and at 13 `JUMPDEST; PUSH1 7; PUSH0; SSTORE; STOP`. -/
def twinBytes : List UInt8 :=
  [0x36, 0x60, 7, 0x57, 0x60, 13, 0x56, 0x5b, 0x60, 7, 0x5f, 0x55, 0x00, 0x5b, 0x60, 7, 0x5f, 0x55, 0x00]

theorem twin_plain (i : Nat) (d : InstData) (h : (analyzeBytes (fun _ => 3) SpecId.CANCUN 1000 twinBytes).1.insts[i]? = some d)
    (_ : d.flags.deadCode = false) : Plain d := by
  have hp : (analyzeBytes (fun _ => 3) SpecId.CANCUN 1000 twinBytes).1.insts.all plainCheck = true := by decide +kernel
  exact plain_of_check (List.all_eq_true.1 hp d (List.mem_of_getElem? h))

/-- The block at 13 is merged into the block at 7. -/
theorem twin_compiles : ∃ D, compileDedup { dse := true, inspect := false } (fun _ => 3) SpecId.CANCUN 1000 twinBytes =
    some D ∧ D.redirects = [(10, 5)] := by
  have h : (compileDedup { dse := true, inspect := false } (fun _ => 3) SpecId.CANCUN 1000 twinBytes).map (·.redirects) =
      some [(10, 5)] := by decide +kernel
  exact Option.map_eq_some_iff.1 h

/-- With empty call data, the EVM jumps to 13; the compiled program is at the block at 7. -/
example : ∃ D n cx, compileDedup { dse := true, inspect := false } (fun _ => 3) SpecId.CANCUN 1000 twinBytes = some D ∧
    D.run (demoEnv (parse (fun _ => 3) SpecId.CANCUN twinBytes).toProg.insts) (fun _ _ => 7) (fun _ => 9) n =
      .running 5 5 cx ∧ Holds cx [] := by
  obtain ⟨D, hD, hr⟩ := twin_compiles
  obtain ⟨n, cx, h1, h2, _⟩ := C60_enters_partial hD (by decide) twin_plain (fun _ _ => 7) (fun _ => 9)
    (demo_world _) (demo_placeless _)
    (demo_run (n := 5) (k := 5) (i := 10) (c := []) (tr := []) (by decide) (by decide +kernel))
    (b := (10, 15)) (by decide +kernel) rfl
  rw [hr] at h1
  exact ⟨D, n, cx, hD, h1, h2⟩

/-- It stores 7 at 0 and stops. -/
example : ∃ D n j cx, compileDedup { dse := true, inspect := false } (fun _ => 3) SpecId.CANCUN 1000 twinBytes = some D ∧
    D.run (demoEnv (parse (fun _ => 3) SpecId.CANCUN twinBytes).toProg.insts) (fun _ _ => 7) (fun _ => 9) n =
      .halted j cx ∧ shown cx.trace = [.effect [0, 7]] := by
  obtain ⟨D, hD, _⟩ := twin_compiles
  have hd : (parse (fun _ => 3) SpecId.CANCUN twinBytes).toProg.insts[14]?.map
      (fun d => (d.opcode, d.stackIo, observed (demoEnv (parse (fun _ => 3) SpecId.CANCUN twinBytes).toProg.insts) 9 14 d [])) =
      some (0, (0, 0), []) := by decide +kernel
  obtain ⟨d, hd, he⟩ := Option.map_eq_some_iff.1 hd
  simp only [Prod.mk.injEq] at he
  obtain ⟨n, j, cx, h1, _, h2, _⟩ := C60_halts_partial hD (by decide) twin_plain (fun _ _ => 7) (fun _ => 9)
    (demo_world _) (demo_placeless _)
    (demo_run (n := 9) (k := 9) (i := 14) (c := []) (tr := [.effect [0, 7]]) (by decide) (by decide +kernel)) hd
    (.inr (.inr (by rw [he.1]; decide))) (by rw [show d.stackIo = (0, 0) from he.2.1]; decide)
  exact ⟨D, n, j, cx, hD, h1, by rw [h2, he.2.2]; rfl⟩

/-- It has ended after three blocks, so `C60_outcome_partial` speaks about it. -/
example : ∃ D, compileDedup { dse := true, inspect := false } (fun _ => 3) SpecId.CANCUN 1000 twinBytes = some D ∧
    (∀ b ∈ (analyzeBytes (fun _ => 3) SpecId.CANCUN 1000 twinBytes).1.blocks,
      highest ((((parse (fun _ => 3) SpecId.CANCUN twinBytes).toProg.insts.drop b.1).take (b.2 - b.1)).map (·.stackIo)) 0 -
        lowest ((((parse (fun _ => 3) SpecId.CANCUN twinBytes).toProg.insts.drop b.1).take (b.2 - b.1)).map (·.stackIo)) 0 ≤
        32767) ∧
    ∀ k i cx, D.run (demoEnv (parse (fun _ => 3) SpecId.CANCUN twinBytes).toProg.insts) (fun _ _ => 7) (fun _ => 9) 3 ≠
      .running k i cx := by
  have h : (compileDedup { dse := true, inspect := false } (fun _ => 3) SpecId.CANCUN 1000 twinBytes).map (fun D =>
      (D.run (demoEnv (parse (fun _ => 3) SpecId.CANCUN twinBytes).toProg.insts) (fun _ _ => 7) (fun _ => 9) 3).final) =
      some true := by decide +kernel
  obtain ⟨D, hD, h⟩ := Option.map_eq_some_iff.1 h
  refine ⟨D, hD, by decide +kernel, fun k i cx hx => ?_⟩
  rw [hx] at h
  cases h

/-! ## The restriction to unambiguous immediates is necessary -/

theorem drun_final {D : DCompiled} {env : Env F} {clob : Nat → Int → Word} {mem : Int → Word} {n : Nat}
    (h : (D.run env clob mem n).final = true) (m : Nat) : D.run env clob mem (n + m) = D.run env clob mem n := by
  induction m with
  | zero => rfl
  | succ m ih =>
    show (match D.run env clob mem (n + m) with
      | .running k i cx => D.block env clob k i cx
      | o => o) = _
    rw [ih]
    revert h
    generalize D.run env clob mem n = out
    intro h
    cases out <;> first | rfl | cases h

theorem drun_final_eq {D : DCompiled} {env : Env F} {clob : Nat → Int → Word} {mem : Int → Word} {n m : Nat}
    (h : (D.run env clob mem n).final = true) (h' : (D.run env clob mem m).final = true) :
    D.run env clob mem n = D.run env clob mem m := by
  rcases Nat.le_total n m with hl | hl
  · rw [← drun_final h (m - n), Nat.add_sub_cancel' hl]
  · rw [← drun_final h' (n - m), Nat.add_sub_cancel' hl]

/-- What a program that has halted has shown. -/
def COut.haltShown : COut F → Option (List (Obs F))
  | .halted _ cx => some (shown cx.trace)
  | _ => none

/-- `clashBytes` (`Props/Dedup.lean`) with the branches exchanged. -/
def clashRun : List UInt8 :=
  [0x60, 1, 0x60, 2, 0x36, 0x60, 0x0b, 0x57, 0x60, 0x16, 0x56,
   0x5b, 0x62, 0x50, 0x50, 0x80, 0x5f, 0x52, 0x60, 0x20, 0x5f, 0xf3,
   0x5b, 0x62, 0, 0, 0, 0x50, 0x50, 0x80, 0x5f, 0x52, 0x60, 0x20, 0x5f, 0xf3]

/-- C60 fails: with empty call data, `clashRun` stores and returns 1 in the EVM, and `0x505080` when compiled. -/
theorem C60_halts_fails : ¬ C60_halts := by
  intro h
  have h1 : (compileDedup { dse := true, inspect := false } (fun _ => 3) SpecId.CANCUN 1000 clashRun).map (fun D =>
      (D.run (demoEnv (parse (fun _ => 3) SpecId.CANCUN clashRun).toProg.insts) (fun _ _ => 7) (fun _ => 9) 3).haltShown) =
      some (some [.effect [0, 0x20], .effect [0, 0x505080]]) := by decide +kernel
  obtain ⟨D, hD, h1⟩ := Option.map_eq_some_iff.1 h1
  have hd : (parse (fun _ => 3) SpecId.CANCUN clashRun).toProg.insts[23]?.map
      (fun d => (d.opcode, d.stackIo,
        observed (demoEnv (parse (fun _ => 3) SpecId.CANCUN clashRun).toProg.insts) 16 23 d [0, 0x20, 1])) =
      some (0xf3, (2, 0), [.effect [0, 0x20]]) := by decide +kernel
  obtain ⟨d, hd, he⟩ := Option.map_eq_some_iff.1 hd
  simp only [Prod.mk.injEq] at he
  obtain ⟨n, j, cx, h2, _, h4, _⟩ := h (List Word) (fun _ => 3) SpecId.CANCUN 1000 clashRun _ D hD (by decide) _
    (fun _ _ => 7) (fun _ => 9) (demo_world _) (demo_placeless _) 16 23 [0, 0x20, 1] [.effect [0, 1]] d
    (demo_run (n := 16) (by decide) (by decide +kernel)) hd (.inr (.inr (by rw [he.1]; decide)))
    (by rw [show d.stackIo = (2, 0) from he.2.1]; decide)
  rw [he.2.2] at h4
  have h3 : (D.run (demoEnv (parse (fun _ => 3) SpecId.CANCUN clashRun).toProg.insts) (fun _ _ => 7) (fun _ => 9)
      3).final = true := by
    revert h1
    generalize D.run (demoEnv (parse (fun _ => 3) SpecId.CANCUN clashRun).toProg.insts) (fun _ _ => 7) (fun _ => 9) 3 = x
    intro h1
    cases x <;> first | rfl | cases h1
  have := drun_final_eq h3 (by rw [h2]; rfl : (D.run _ _ _ n).final = true)
  rw [this, h2] at h1
  have h5 : some (shown cx.trace) = some [Obs.effect [0, 0x20], Obs.effect [0, 0x505080]] := h1
  rw [h4] at h5
  revert h5
  decide

end Verif
