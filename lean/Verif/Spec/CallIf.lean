import Verif.Model.CallIf
/-!
# What a call of compiled code means, and what an inspector should hear of it
-/

namespace Verif.CallIf.Spec

open Verif.CallIf

variable {L H N R I X F T E D : Type}

/-- The compiled function `f`, started in `c`, emits the logs `ls` in this order and ends in `c'` with
result `r`; every log goes to the host when it is emitted. -/
inductive Runs (hostLog : H → L → H) : Code L H N R → Ctx H N R → List L → Res → Ctx H N R → Prop
  | ret (r c) : Runs hostLog (.ret r) c [] r c
  | step {f next c ls r c'} : Runs hostLog (next c) (f c) ls r c' → Runs hostLog (.step f next) c ls r c'
  | log {mk next c ls r c'} :
      Runs hostLog (next c) { c with host := hostLog c.host (mk c) } ls r c' →
      Runs hostLog (.log mk next) c (mk c :: ls) r c'

/-- The context in which a frame's function starts: the frame's gas, return data and resume point, and
no action. -/
def Fresh (x : Interp N R) (h : H) (c : Ctx H N R) : Prop :=
  c.host = h ∧ c.gas = x.gas ∧ c.nextAction = none ∧ c.returnData = x.returnData ∧
  c.resumeAt = x.pc ∧ c.rest = x.rest

/-- The gas left after a result. -/
def gasAfter : Res → Gas → Gas
  | .outOfGas, g => ⟨0, g.refunded⟩
  | _, g => g

/-- What an inspector can hear. -/
inductive Event (L D T : Type)
  | log (l : L)
  | destroyed (d : D)
  | frameEnd (t : T)
deriving DecidableEq, Repr

/-- The inspector that writes everything down and changes nothing. -/
def recorder : Insp L (List (Event L D T)) D T where
  log i l := i ++ [.log l]
  selfdestruct i d := i ++ [.destroyed d]
  frameEnd i t := (i ++ [.frameEnd t], t)

end Verif.CallIf.Spec
