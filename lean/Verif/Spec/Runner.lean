import Verif.Model.Runner
/-!
# What a passed run of the state tests means
-/

namespace Verif.Runner.Spec

open Verif.Runner

variable {B H : Type}

/-- A test passes: the expected exception happened; or none was expected and none happened, logs and state are as
expected, and so is the output if there is one on both sides. -/
def Passes (out : Option B) (t : Case H) (e : Exec B H) : Prop :=
  (t.expectException = true ∧ e.ok = false) ∨
  (t.expectException = false ∧ e.ok = true ∧ e.logsRoot = t.logs ∧ e.stateRoot = t.hash ∧
    ∀ x y, out = some x → e.output = some y → x = y)

/-- What is demanded of a test: without a transaction, that an exception was expected; otherwise that it passes. -/
def Fulfilled (out : Option B) (exec : Case H → Exec B H) (t : Case H) : Prop :=
  if t.txOk then Passes out t (exec t) else t.expectException = true

/-- What is demanded of a file. -/
def SuitePasses (us : List (TUnit B H)) (exec : TUnit B H → Nat → Case H → Exec B H) : Prop :=
  ∀ u ∈ us, ∀ p ∈ u.post, p.constantinople = false → ∀ t ∈ p.tests, Fulfilled u.out (exec u p.fork) t

end Verif.Runner.Spec
