import Verif.Lemmas.WholeGasEnd
import Verif.Lemmas.WholeExec
/-!
# Concrete executions with gas
-/

namespace Verif
open Spec
variable {F : Type}

theorem compile_spec {g : UInt8 → BitVec 16} {spec : SpecId} {limit : Nat} {bytes : List UInt8} {o : WOpts}
    {C : Compiled} (hC : compileBytes o g spec limit bytes = some C) : C.spec = spec := by
  unfold compileBytes at hC
  revert hC
  generalize analyzeBytes g spec limit bytes = r
  intro hC
  obtain ⟨bs, hb, rfl⟩ := Option.map_eq_some_iff.1 hC
  rfl

/-- The execution of `n` more steps with gas. -/
def evmGasRun (cap : Nat) (code : Code) (insts : List InstData) (fork : Nat) (env : Env F)
    (dyn : Nat → Nat → List Word → Nat) :
    Nat → Nat × Nat × List Word × List (Obs F) × Nat × List (Nat × Nat) →
      Option (Nat × Nat × List Word × List (Obs F) × Nat × List (Nat × Nat))
  | 0, s => some s
  | n + 1, (k, i, c, tr, g, rd) =>
    match insts[i]? with
    | none => none
    | some d =>
      (evmStep code insts env k i c).bind fun s =>
        if s.2.length ≤ cap ∧ d.baseGas + dyn k i (c.take d.stackIo.1) ≤ g then
          evmGasRun cap code insts fork env dyn n (k + 1, s.1, s.2, observed env k i d c ++ tr,
            g - d.baseGas - dyn k i (c.take d.stackIo.1),
            if readsGas fork d.opcode then (k, g - d.baseGas) :: rd else rd)
        else none

theorem evmGasRun_run {cap : Nat} {code : Code} {env : Env F} {insts : List InstData} {ok : Nat → List Word → Prop}
    {fork : Nat} {dyn : Nat → Nat → List Word → Nat} {g0 : Nat} (hw : World insts env)
    (hio : ∀ (i : Nat) d, insts[i]? = some d → ¬ Halts d → d.opcode.toNat = 0x56 ∨ d.opcode.toNat = 0x57 →
      d.stackIo = if d.opcode.toNat = 0x57 then (2, 0) else (1, 0)) (hcap : cap ≤ 1024)
    (hok : ∀ i c, c.length ≤ cap → ok i c) (n : Nat) :
    ∀ k i c tr g rd k' i' c' tr' g' rd', GasRun code insts fork env dyn ok g0 k i c tr g rd →
      evmGasRun cap code insts fork env dyn n (k, i, c, tr, g, rd) = some (k', i', c', tr', g', rd') →
      GasRun code insts fork env dyn ok g0 k' i' c' tr' g' rd' := by
  induction n with
  | zero => intro k i c tr g rd k' i' c' tr' g' rd' hr h; cases h; exact hr
  | succ n ih =>
    intro k i c tr g rd k' i' c' tr' g' rd' hr h
    unfold evmGasRun at h
    cases hd : insts[i]? with
    | none => rw [hd] at h; cases h
    | some d =>
      rw [hd] at h
      dsimp only at h
      obtain ⟨s, h1, h2⟩ := Option.bind_eq_some_iff.1 h
      obtain ⟨i1, c1⟩ := s
      split at h2
      · rename_i hl
        dsimp only at hl
        obtain ⟨s1, s2⟩ := evmStep_sound hw.len hd (hio i d hd) h1
        exact ih _ _ _ _ _ _ _ _ _ _ _ _ (.step hr hd s1 s2 (by omega) (hok _ _ hl.1) hl.2) h2
      · cases h2

instance : DecidableEq (List Word × List (Obs (List Word)) × Nat × List (Nat × Nat)) := inferInstance
instance : DecidableEq (Nat × List Word × List (Obs (List Word)) × Nat × List (Nat × Nat)) :=
  fun a b => instDecidableEqProd a b
instance : DecidableEq (Nat × Nat × List Word × List (Obs (List Word)) × Nat × List (Nat × Nat)) :=
  fun a b => instDecidableEqProd a b

/-- The cost of an exponent in the examples. -/
def demoExp (w : Word) : Nat := if w.toNat = 0 then 0 else if w.toNat < 256 then 50 else 100

/-- The dynamic costs of the examples: EXP by its exponent, SSTORE 100, KECCAK256 30. -/
def demoDyn (insts : List InstData) : Nat → Nat → List Word → Nat := fun _ i args =>
  match insts[i]? with
  | none => 0
  | some d =>
    if d.opcode.toNat = 0x0a then demoExp (args.getD 1 0)
    else if d.opcode.toNat = 0x55 then 100
    else if d.opcode.toNat = 0x20 then 30
    else 0

theorem demo_costs (insts : List InstData) : Costs insts (demoDyn insts) demoExp := by
  constructor
  · intro k i d args hd hs ho
    have h55 : d.opcode.toNat ≠ 0x55 := fun h => by rw [h] at hs; cases hs
    have h20 : d.opcode.toNat ≠ 0x20 := fun h => by rw [h] at hs; cases hs
    unfold demoDyn
    rw [hd]
    simp [ho, h55, h20]
  · intro k i d a e hd ho
    unfold demoDyn
    rw [hd]
    simp [ho]
  · intro k i d x y hd ho
    unfold demoDyn
    rw [hd]
    simp [ho]

theorem demoExp_le (w : Word) : demoExp w ≤ 100 := by
  unfold demoExp
  split
  · omega
  · split <;> omega

theorem demo_gas_run {g : UInt8 → BitVec 16} {spec : SpecId} {bytes : List UInt8} {g0 n k i : Nat} {c : List Word}
    {tr : List (Obs (List Word))} {gl : Nat} {rd : List (Nat × Nat)} (hlen : bytes.length ≤ 2 ^ 31)
    (h : evmGasRun 64 (parse g spec bytes).toCode (parse g spec bytes).toProg.insts spec
      (demoEnv (parse g spec bytes).toProg.insts) (demoDyn (parse g spec bytes).toProg.insts) n (0, 0, [], [], g0, []) =
      some (k, i, c, tr, gl, rd)) :
    GasRun (parse g spec bytes).toCode (parse g spec bytes).toProg.insts spec (demoEnv (parse g spec bytes).toProg.insts)
      (demoDyn (parse g spec bytes).toProg.insts) (shallow (parse g spec bytes).toProg.insts) g0 k i c tr gl rd :=
  evmGasRun_run (ok := shallow (parse g spec bytes).toProg.insts) (demo_world _) (parse_jump_io g spec bytes hlen)
    (by decide) (fun _ _ h _ => h) n _ _ _ _ _ _ _ _ _ _ _ _ (.start (fun _ => by simp)) h

theorem demo_gas_run_any {g : UInt8 → BitVec 16} {spec : SpecId} {bytes : List UInt8} {g0 n k i : Nat} {c : List Word}
    {tr : List (Obs (List Word))} {gl : Nat} {rd : List (Nat × Nat)} (hlen : bytes.length ≤ 2 ^ 31)
    (h : evmGasRun 1024 (parse g spec bytes).toCode (parse g spec bytes).toProg.insts spec
      (demoEnv (parse g spec bytes).toProg.insts) (demoDyn (parse g spec bytes).toProg.insts) n (0, 0, [], [], g0, []) =
      some (k, i, c, tr, gl, rd)) :
    GasRun (parse g spec bytes).toCode (parse g spec bytes).toProg.insts spec (demoEnv (parse g spec bytes).toProg.insts)
      (demoDyn (parse g spec bytes).toProg.insts) always g0 k i c tr gl rd :=
  evmGasRun_run (ok := always) (demo_world _) (parse_jump_io g spec bytes hlen)
    (by decide) (fun _ _ _ => trivial) n _ _ _ _ _ _ _ _ _ _ _ _ (.start trivial) h

end Verif
