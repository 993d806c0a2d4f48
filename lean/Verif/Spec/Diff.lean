import Verif.Model.Diff
/-!
# Specification: what a comparison of two executions is
-/

namespace Verif.Diff.Spec

/-- The tests that are to be compared: those with a transaction, of the wanted forks but Constantinople, of the wanted
units, of the files that are suites. -/
def chosen {T : Type} (files : List (File T)) : List T :=
  files.flatMap fun
    | .suite us => (us.filter (·.wanted)).flatMap fun u =>
        (u.post.filter fun p => !p.constantinople && p.wanted).flatMap fun p => (p.tests.filter (·.txOk)).map (·.test)
    | _ => []

/-- Compiled code, started with the backend in state `k`, does with each of the tests what the interpreter does. -/
def Agrees {S K T : Type} (interp : T → S) (jit : K → T → S × K) : K → List T → Prop
  | _, [] => True
  | k, t :: ts => interp t = (jit k t).1 ∧ Agrees interp jit (jit k t).2 ts

/-- With how many of the tests it does something else. -/
def disagreements {S K T : Type} [DecidableEq S] (interp : T → S) (jit : K → T → S × K) : K → List T → Nat
  | _, [] => 0
  | k, t :: ts => (if interp t = (jit k t).1 then 0 else 1) + disagreements interp jit (jit k t).2 ts

/-- How many of the files are suites. -/
def suites {T : Type} (files : List (File T)) : Nat := (files.filter fun | .suite _ => true | _ => false).length

/-- How many of the files are skipped by name. -/
def skips {T : Type} (files : List (File T)) : Nat := (files.filter fun | .skipped => true | _ => false).length

/-- Every contract with code is run by a function compiled from a code with its hash. -/
def Serves {H F : Type} (hash : List UInt8 → H) (compile : List UInt8 → F) (lookup : H → Option F)
    (codes : List (List UInt8)) : Prop :=
  ∀ c ∈ codes, c ≠ [] → ∃ c', hash c' = hash c ∧ lookup (hash c) = some (compile c')

end Verif.Diff.Spec
