import Verif.Model.RunBench
/-!
# Properties: what `revmc run` executes and reports (C78)
-/

namespace Verif.RunBench

theorem count_bench (n : Nat) (x y : Exec) : (bench n x).count y = if x = y then max (n / 10) 10 + n else 0 := by
  simp only [bench, List.count_append, List.count_replicate, beq_iff_eq]
  split <;> rfl

/-- C78: with `--interpret`, which excludes `--jit-only`, compiled code is never executed. -/
theorem C78_interpret (n : Nat) : Exec.jit ∉ execs n true false := by
  rw [← List.count_eq_zero]
  simp only [execs]
  split
  · rfl
  · simp [count_bench]

/-- C78, what holds of `--jit-only`: the interpreter is not executed, unless one iteration is asked for. Missing
from the full claim: one iteration, the default. -/
theorem C78_jit_only_partial (n : Nat) (h : n ≠ 1) : Exec.interpreter ∉ execs n false true := by
  rw [← List.count_eq_zero]
  simp only [execs, h, false_and, if_false]
  split
  · rfl
  · simp [count_bench]

/-- C78 does not hold of the code: with `--jit-only` and the default number of iterations the interpreter runs. -/
theorem C78_jit_only_fails : ¬ ∀ n, Exec.interpreter ∉ execs n false true := fun h => h 1 (by decide)

/-- C78: nothing is executed exactly when no iterations are asked for; otherwise every engine that is executed is
executed at least as often as asked for. -/
theorem C78_enough (n : Nat) (interpret jitOnly : Bool) (hx : ¬ (interpret = true ∧ jitOnly = true)) :
    (execs n interpret jitOnly = [] ↔ n = 0) ∧
    ∀ x ∈ execs n interpret jitOnly, n ≤ (execs n interpret jitOnly).count x := by
  by_cases h0 : n = 0
  · subst h0; simp [execs]
  · by_cases h1 : n = 1 ∧ (!interpret || jitOnly) = true
    · simp only [execs, h0, h1, if_false]
      refine ⟨by simp, fun x _ => ?_⟩
      cases x <;> simp
    · simp only [execs, h0, h1, if_false]
      constructor
      · cases interpret <;> cases jitOnly <;> simp_all [bench]
      · intro x hm
        cases interpret <;> cases jitOnly <;> simp_all [List.count_append, count_bench] <;>
          cases x <;> simp_all [bench] <;> omega

example : execs 2 false true = List.replicate 12 .jit ∧ execs 1 true false = List.replicate 11 .interpreter ∧
    (execs 3 false false).count .jit = 13 ∧ (execs 3 false false).count .interpreter = 13 := by decide

/-- C78, what holds of the report: for less than 2^32 iterations, but at least one, it is the time per timed
iteration, rounded down. Missing from the full claim: more iterations, which the argument, a `u64`, allows. -/
theorem C78_average_partial (d n : Nat) (h0 : 0 < n) (h : n < 2 ^ 32) :
    ∃ q, average d n = some q ∧ n * q ≤ d ∧ d < n * (q + 1) := by
  refine ⟨d / n, ?_, Nat.mul_div_le d n, ?_⟩
  · simp only [average, Nat.mod_eq_of_lt h]
    rw [if_neg (by omega)]
  · exact Nat.lt_mul_div_succ d h0

/-- The report is wrong for more iterations: 2^32 of them end in a panic, and with one more the total is given out
as the average. -/
theorem C78_average_fails (d : Nat) : average d (2 ^ 32) = none ∧ average d (2 ^ 32 + 1) = some d := by
  constructor
  · simp [average]
  · simp [average]

example : average 1000 3 = some 333 := by decide

end Verif.RunBench
