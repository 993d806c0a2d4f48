import Verif.Lemmas.HelperIo
import Verif.Lemmas.ListExtra
/-!
# Specification: helper conversation
-/

namespace Verif.HelperIo

/-- The response with this id and result was read by the reader after the request had been
registered. -/
def Spec.ReadAfterSubmit (evs : List Ev) (id : Nat) (r : Result) : Prop :=
  ∃ pre post, evs = pre ++ .read (.job id r) :: post ∧ id < (run init pre).nextId ∧
    (run init pre).readerAlive = true

/-- The job `id` has returned with answer `a`. -/
def Spec.Returned (s : State) (id : Nat) (a : Answer) : Prop := ∃ k, s.caller id = some (k, .done a)

/-- The actions a caller takes on its own. -/
def Spec.Own (id : Nat) : Ev → Prop
  | .wrote i => i = id
  | .recv i => i = id
  | .expire i => i = id
  | _ => False

end Verif.HelperIo
