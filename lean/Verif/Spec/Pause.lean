import Verif.Model.Pause
import Verif.Lemmas.ListExtra
/-!
# Specification: pause and resume
-/

namespace Verif.Pause

/-- Everything decided has been sent and handled. -/
def Spec.Settled (s : State) : Prop := s.toSend = [] ∧ s.queue = []

/-- Outstanding pauses in a history (each resume matching an earlier pause). -/
def Spec.outstanding : List Ev → Int
  | [] => 0
  | .pauseAtomic :: r => Spec.outstanding r + 1
  | .resumeAtomic :: r => Spec.outstanding r - 1
  | _ :: r => Spec.outstanding r

/-- Every resume matches an earlier pause. -/
def Spec.Matched (evs : List Ev) : Prop := ∀ n, 0 ≤ Spec.outstanding (evs.take n)

/-- The compiler is paused: the flag is set, and so is any running helper's stop state. -/
def Spec.Paused (s : State) (b : Bool) : Prop := s.flag = b ∧ ∀ h, s.helper = some h → h = b

/-- Calls do not overlap: whenever the depth changes, no thread still owes a command. -/
def Spec.Sequential (cap : Nat) (evs : List Ev) : Prop :=
  ∀ pre e post, evs = pre ++ e :: post → (e = .pauseAtomic ∨ e = .resumeAtomic) →
    (run cap (init true) pre).toSend = []

end Verif.Pause
