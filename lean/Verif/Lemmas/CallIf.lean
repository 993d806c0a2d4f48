import Verif.Spec.CallIf
/-!
# Runs of compiled code with and without a callback
-/

namespace Verif.CallIf

open Spec

variable {L H N R I X F T E D : Type}

/-- Every function has a run. -/
theorem runs_total (hostLog : H → L → H) (f : Code L H N R) (c : Ctx H N R) :
    ∃ ls r c', Runs hostLog f c ls r c' := by
  induction f generalizing c with
  | ret r => exact ⟨_, _, _, .ret r c⟩
  | step g next ih =>
    obtain ⟨ls, r, c', h⟩ := ih c (g c)
    exact ⟨_, _, _, .step h⟩
  | log mk next ih =>
    obtain ⟨ls, r, c', h⟩ := ih c { c with host := hostLog c.host (mk c) }
    exact ⟨_, _, _, .log h⟩

/-- The model runs the function, and the callback hears the logs in order. -/
theorem run_eq {hostLog : H → L → H} {f : Code L H N R} {c c' : Ctx H N R} {ls : List L} {r : Res}
    (h : Runs hostLog f c ls r c') (onLog : Option (I → L → I)) (i : I) :
    f.run hostLog onLog c i = (r, c', match onLog with | some g => ls.foldl g i | none => i) := by
  induction h generalizing i with
  | ret r c => cases onLog <;> rfl
  | step _ ih => simp only [Code.run]; rw [ih]
  | log _ ih =>
    simp only [Code.run]
    cases onLog with
    | none => simp only [handLog]; rw [ih]
    | some g => simp only [handLog]; rw [ih]; rfl

theorem ofInterp_eq {x : Interp N R} {h : H} {c : Ctx H N R} (hc : Fresh x h c) :
    Ctx.ofInterp { x with action := none } h = c := by
  obtain ⟨a, b, d, e, f, g⟩ := hc
  cases c
  simp only at a b d e f g
  subst a b d e f g
  rfl

/-- The interpreter after a call that ended in `c'` with result `r`. -/
def after (x : Interp N R) (r : Res) (c' : Ctx H N R) : Interp N R :=
  { action := none, gas := gasAfter r c'.gas,
    returnData := if c'.returnData.isEmpty then [] else x.returnData, pc := c'.resumeAt, rest := c'.rest }

theorem callInner_eq {hostLog : H → L → H} {f : Code L H N R} {x : Interp N R} {h : H} {c c' : Ctx H N R}
    {ls : List L} {r : Res} (hc : Fresh x h c) (hr : Runs hostLog f c ls r c')
    (onLog : Option (I → L → I)) (i : I) :
    callInner hostLog onLog f x h i =
      (c'.nextAction.getD (.ret r [] (gasAfter r c'.gas)), after x r c', c'.host,
        match onLog with | some g => ls.foldl g i | none => i) := by
  simp only [callInner]
  rw [ofInterp_eq hc, run_eq hr]
  cases r <;> cases hna : c'.nextAction <;> cases hrd : c'.returnData.isEmpty <;>
    simp [after, gasAfter, Gas.spendAll, hrd, hna]

end Verif.CallIf
