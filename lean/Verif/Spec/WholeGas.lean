import Verif.Spec.Whole
import Verif.Spec.Sections
/-!
# Whole executions with gas

The EVM with its gas counter: every instruction pays its static cost and then its dynamic cost when it is executed.
Written without reference to sections.
-/

namespace Verif.Spec
variable {F : Type}

instance (fork : Nat) (o : UInt8) : Decidable (readsGas fork o) :=
  inferInstanceAs (Decidable (_ ∨ _))

/-- The dynamic costs are those of an EVM: `dyn k i args` is what the `k`-th executed instruction, at index `i`, costs
on operands `args` (top first) besides its static cost. Instructions that only compute on the stack cost nothing more,
except EXP, whose cost is that of its exponent; hashing an empty memory range costs the same at every offset. -/
structure Costs (insts : List InstData) (dyn : Nat → Nat → List Word → Nat) (expCost : Word → Nat) : Prop where
  quiet : ∀ k i d args, insts[i]? = some d → silent d.opcode.toNat = true → d.opcode.toNat ≠ 0x0a → dyn k i args = 0
  exp : ∀ k i d a e, insts[i]? = some d → d.opcode.toNat = 0x0a → dyn k i [a, e] = expCost e
  hash : ∀ k i d x y, insts[i]? = some d → d.opcode.toNat = 0x20 → dyn k i [x, 0] = dyn k i [y, 0]

/-- Executions as in `Run`, started with gas `g0`, of which `g` is left; `rd` are the values of the counter that were
read, with the number of the instruction that read it (latest first): the static cost has been paid then. -/
inductive GasRun (code : Code) (insts : List InstData) (fork : Nat) (env : Env F) (dyn : Nat → Nat → List Word → Nat)
    (ok : Nat → List Word → Prop) (g0 : Nat) :
    Nat → Nat → List Word → List (Obs F) → Nat → List (Nat × Nat) → Prop
  | start : ok 0 [] → GasRun code insts fork env dyn ok g0 0 0 [] [] g0 []
  | step {k i i' : Nat} {c c' : List Word} {tr : List (Obs F)} {g : Nat} {rd : List (Nat × Nat)} {d : InstData} :
      GasRun code insts fork env dyn ok g0 k i c tr g rd → insts[i]? = some d → Step code insts i c i' c' →
      Follows code env k i d c c' → c'.length ≤ 1024 → ok i' c' →
      d.baseGas + dyn k i (c.take d.stackIo.1) ≤ g →
      GasRun code insts fork env dyn ok g0 (k + 1) i' c' (observed env k i d c ++ tr)
        (g - d.baseGas - dyn k i (c.take d.stackIo.1))
        (if readsGas fork d.opcode then (k, g - d.baseGas) :: rd else rd)

/-- The EVM is out of gas at instruction `d`: it cannot pay the static cost, or, having its operands and room for its
results, the dynamic cost. Disabled and unknown instructions cost nothing. -/
def NoGas (dyn : Nat → Nat → List Word → Nat) (k i : Nat) (d : InstData) (c : List Word) (g : Nat) : Prop :=
  ¬ (d.flags.disabled = true ∨ d.flags.unknown = true) ∧
    (g < d.baseGas ∨ (d.stackIo.1 ≤ c.length ∧ c.length - d.stackIo.1 + d.stackIo.2 ≤ 1024 ∧
      g < d.baseGas + dyn k i (c.take d.stackIo.1)))

/-- The effects and calls among events that also carry charges. -/
def effects (tr : List (Obs (Option F × Nat))) : List (Obs F) :=
  tr.filterMap fun e => match e with
    | .effect (some f, _) => some (.effect f)
    | .effect (none, _) => none
    | .called s => some (.called s)

end Verif.Spec
