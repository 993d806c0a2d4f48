import Verif.Model.Workers
import Verif.Spec.Session
/-!
# Specification: who holds what compiled code

In terms of the steps taken and what they returned, newest first.
-/

namespace Verif.Workers
open Verif.Session

/-- Steps taken and their results, newest first. -/
abbrev Hist := List (Ev × Ret)

/-- Handle `h` was returned with pointer `a` for compiling `code` under the name `n`, and not dropped since. -/
def Held : Hist → Nat → Nat → Name → Code → Prop
  | [], _, _, _, _ => False
  | (.dropHandle h', _) :: r, h, a, n, code => h ≠ h' ∧ Held r h a n code
  | (.job _ n' code' _ _ _ _ _ _, .handle h' a') :: r, h, a, n, code =>
    (h = h' ∧ a = a' ∧ n = n' ∧ code = code') ∨ Held r h a n code
  | (.linkObject n' code' _, .handle h' a') :: r, h, a, n, code =>
    (h = h' ∧ a = a' ∧ n = n' ∧ code = code') ∨ Held r h a n code
  | _ :: r, h, a, n, code => Held r h a n code

/-- LLVM never failed after a module was added. -/
def Linked : Hist → Prop
  | [] => True
  | (.job _ _ _ _ _ _ link _ _, _) :: r => link = true ∧ Linked r
  | _ :: r => Linked r

/-- A process without workers, in which other code may be loaded. -/
def start (j0 : Jit) : Pool := ⟨j0, [], [], 0⟩

/-- `Run limit j0 r p`: the steps `r` lead to `p`. -/
inductive Run (limit : Nat) (j0 : Jit) : Hist → Pool → Prop
  | start : Run limit j0 [] (start j0)
  | step {r p e p' x} : Run limit j0 r p → step limit p e = (p', x) → Run limit j0 ((e, x) :: r) p'

end Verif.Workers
