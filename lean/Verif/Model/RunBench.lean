/-!
# What `revmc run` executes and reports

The end of `RunArgs::run` (crates/revmc-cli/src/cmd/run.rs:264-278), `bench` (run.rs:356-368), and the two
executions of `sanity_check` (crates/revmc-cli/src/fixture.rs:374-376).
-/

namespace Verif.RunBench

/-- One execution of the benchmark: `run_interpreter` or `run_jit`. -/
inductive Exec
  | interpreter
  | jit
deriving DecidableEq, Repr

/-- The average that `bench` prints (run.rs:366-367) for a total of `d` nanoseconds: `n_iters as u32` keeps 32
bits, and dividing a `Duration` by zero panics (`none`). -/
def average (d n : Nat) : Option Nat :=
  let k := n % 2 ^ 32
  if k = 0 then none else some (d / k)

/-- What `bench` executes (run.rs:357-365): a warm-up, not timed, and the timed executions. -/
def bench (n : Nat) (x : Exec) : List Exec :=
  let warmup := max (n / 10) 10
  List.replicate warmup x ++ List.replicate n x

/-- What is executed in the end (run.rs:264-278), in order. Simplification: no execution panics, in particular not
the division in `bench`. -/
def execs (n : Nat) (interpret jitOnly : Bool) : List Exec :=
  if n = 0 then []
  else if n = 1 ∧ (!interpret || jitOnly) then [.interpreter, .jit]
  else
    (if interpret || !jitOnly then bench n .interpreter else []) ++
    (if !interpret then bench n .jit else [])

end Verif.RunBench
