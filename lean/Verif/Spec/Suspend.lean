import Verif.Spec.Whole
import Verif.Model.Suspend
/-!
# What the caller of a frame sees
-/

namespace Verif
variable {F : Type}

/-- The stacks at the calls and creations among the observations of an execution, latest first. -/
def Spec.called (tr : List (Spec.Obs F)) : List (List Word) :=
  tr.filterMap fun e => match e with
    | .called s => some s
    | _ => none

/-- The stacks that the caller has been left with in the first `m` steps of a frame, latest first. -/
def Compiled.left (C : Compiled) (inspect : Bool) (env : Env F) (junk : Nat → Int → Word) (fresh buf : Int → Word) :
    Nat → List (List Word)
  | 0 => []
  | m + 1 => match C.frame inspect env junk fresh buf (m + 1) with
    | .outside c _ _ _ => c.stack :: C.left inspect env junk fresh buf m
    | _ => C.left inspect env junk fresh buf m

end Verif
