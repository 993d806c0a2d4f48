import Verif.Model.BuiltinSyms
/-!
# What the sharing of builtin symbols should achieve
-/

namespace Verif.BuiltinSyms.Spec

open Verif.BuiltinSyms

/-- Somebody asked for the symbol `n` at address `a`. -/
def Requested (ops : List Op) (n : Sym) (a : Nat) : Prop := ∃ t job, Op.begin t job ∈ ops ∧ (n, a) ∈ job.symbols

/-- Every request for a name, and the process if it exports it, gives the address `addr` of that builtin. -/
def Consistent (exported : Sym → Option Nat) (addr : Sym → Nat) (ops : List Op) : Prop :=
  (∀ n a, Requested ops n a → a = addr n) ∧ ∀ n a, exported n = some a → a = addr n

/-- The job asks for every name its code uses. -/
def Complete (job : Job) : Prop := ∀ n ∈ job.uses, ∃ a, (n, a) ∈ job.symbols

/-- The code of the job gets the builtins it asked for. -/
def Links (addr : Sym → Nat) (job : Job) (outcome : Option (List Nat)) : Prop :=
  outcome = some (job.uses.map addr)

/-- Some thread other than `t` has announced the symbol `n` and not defined it yet. -/
def Announced (s : Proc) (t : Nat) (n : Sym) : Prop :=
  ∃ u fresh job, u ≠ t ∧ s.threads.get u = some (.inserted fresh job) ∧ ∃ a, (n, a) ∈ fresh

/-- Threads whose `define_builtins` is not interrupted, as if the lock were held to its end. -/
inductive Whole
  | call (t : Nat) (job : Job)
  | link (t : Nat)

/-- Their steps. -/
def Whole.ops : Whole → List Op
  | .call t job => [.begin t job, .define t]
  | .link t => [.link t]

end Verif.BuiltinSyms.Spec
