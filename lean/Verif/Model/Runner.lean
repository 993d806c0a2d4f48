/-!
# Model: the state-test runner

`crates/revmc-statetest/src/runner.rs` and `compiled.rs`. What an EVM does with a test is an arbitrary function;
modelled is what is compared, what counts as a failure, and how the worker threads share the files.
-/

namespace Verif.Runner

variable {B H P : Type}

/-- `Result<ExecutionResult, EVMError>` with the roots of `compute_test_roots` (runner.rs:206): whether there was a
result, its output (none for a halt), the root of the logs and the root of the state. -/
structure Exec (B H : Type) where
  ok : Bool
  output : Option B
  logsRoot : H
  stateRoot : H

/-- A `Test` with what `test.tx_env` gives (runner.rs:310-320): `txOk` is false if there is no transaction. -/
structure Case (H : Type) where
  expectException : Bool
  txOk : Bool
  logs : H
  hash : H

/-- `TestErrorKind` (runner.rs:38-59) as far as one test goes. -/
inductive Kind
  | logsRootMismatch | stateRootMismatch | unknownPrivateKey | unexpectedException | unexpectedOutput | parse
deriving DecidableEq, Repr

/-- `validate_exception` (runner.rs:162-177). -/
def validateException (t : Case H) (e : Exec B H) : Except Kind Bool :=
  match t.expectException, e.ok with
  | false, true => .ok false
  | true, false => .ok true
  | _, _ => .error .unexpectedException

/-- `validate_output` (runner.rs:179-192). -/
def validateOutput [DecidableEq B] (expected : Option B) (e : Exec B H) : Except Kind Unit :=
  match expected, e.output with
  | some x, some y => if x ≠ y then .error .unexpectedOutput else .ok ()
  | _, _ => .ok ()

/-- `check_evm_execution` (runner.rs:194-258) without the printing. -/
def checkExecution [DecidableEq B] [DecidableEq H] (t : Case H) (expected : Option B) (e : Exec B H) : Except Kind Unit :=
  match validateException t e with
  | .error k => .error k
  | .ok true => .ok ()
  | .ok false =>
    match (if e.ok then validateOutput expected e else .ok ()) with
    | .error k => .error k
    | .ok () =>
      if e.logsRoot ≠ t.logs then .error .logsRootMismatch
      else if e.stateRoot ≠ t.hash then .error .stateRootMismatch
      else .ok ()

/-- The tests of a unit for one fork (`unit.post`, runner.rs:288-292). -/
structure Post (H : Type) where
  constantinople : Bool
  fork : Nat
  tests : List (Case H)

/-- A `TestUnit`. -/
structure TUnit (B H : Type) where
  out : Option B
  post : List (Post H)

/-- What running a file comes to. -/
inductive Outcome
  | ok
  | err (k : Kind)
  | panic
deriving DecidableEq, Repr

/-- The loop over the tests of a fork (runner.rs:308-345; compiled.rs:162-191). -/
def runTests [DecidableEq B] [DecidableEq H] (exec : Case H → Exec B H) (out : Option B) : List (Case H) → Outcome
  | [] => .ok
  | t :: ts =>
    if !t.txOk then (if t.expectException then runTests exec out ts else .err .unknownPrivateKey)
    else
      match checkExecution t out (exec t) with
      | .error k => .err k
      | .ok () => runTests exec out ts

/-- The loop over the forks (runner.rs:288-346; compiled.rs:134-192). -/
def runPosts [DecidableEq B] [DecidableEq H] (exec : Nat → Case H → Exec B H) (out : Option B) : List (Post H) → Outcome
  | [] => .ok
  | p :: ps =>
    if p.constantinople then runPosts exec out ps
    else
      match runTests (exec p.fork) out p.tests with
      | .ok => runPosts exec out ps
      | o => o

/-- The loop over the units (runner.rs:279-347; compiled.rs:129-193). -/
def runUnits [DecidableEq B] [DecidableEq H] (exec : TUnit B H → Nat → Case H → Exec B H) : List (TUnit B H) → Outcome
  | [] => .ok
  | u :: us =>
    match runPosts (exec u) u.out u.post with
    | .ok => runUnits exec us
    | o => o

/-- `execute_test_suite` (runner.rs:261-349) and `execute_test_suite_runtime` (compiled.rs:112-194). `read` is the
file: unreadable (`unwrap`), not a suite, or its units. An `exec` that panics is not covered here. -/
def executeSuite [DecidableEq B] [DecidableEq H] (skip : Bool) (read : Option (Option (List (TUnit B H))))
    (exec : TUnit B H → Nat → Case H → Exec B H) : Outcome :=
  if skip then .ok
  else
    match read with
    | none => .panic
    | some none => .err .parse
    | some (some us) => runUnits exec us

/-- What `run_test_worker` returned, or that it panicked (compiled.rs:308-310). -/
inductive Ret
  | ok | err | panic
deriving DecidableEq, Repr

/-- Where a worker thread is: at the top of the loop, past the test of `n_errors`, running a file, returned, or at
the barrier. -/
inductive Thread
  | top
  | checked
  | running (file : Nat)
  | returned (r : Ret)
  | waiting (r : Ret)
deriving DecidableEq, Repr

/-- `TestRunnerState` (runner.rs:383-390) and the threads. `done` records the files that were run, latest first. -/
structure Run where
  nErrors : Nat
  idx : Nat
  files : Nat
  stop : Bool
  threads : List Thread
  done : List Nat
deriving DecidableEq, Repr

/-- The number of threads (compiled.rs:283-290); `par` is `available_parallelism`. -/
def numThreads (single : Bool) (par : Option Nat) (files : Nat) : Nat :=
  if single then 1
  else
    match par with
    | some n => min n files
    | none => 1

/-- `run` up to the spawning of the threads (compiled.rs:239-300). -/
def start (files threads : Nat) : Run := ⟨0, 0, files, false, List.replicate threads .top, []⟩

/-- The steps of thread `t`. -/
inductive Op
  | check (t : Nat)
  | take (t : Nat)
  | exec (t : Nat)
  | settle (t : Nat)
deriving DecidableEq, Repr

/-- `run_test_worker` (compiled.rs:198-236), `next_test` (runner.rs:420-429) and the end of a thread
(compiled.rs:303-321). `result i` is what running file `i` comes to. A step a thread is not at does nothing. -/
def step (keepGoing : Bool) (result : Nat → Outcome) (s : Run) : Op → Run
  | .check t =>
    match s.threads[t]? with
    | some .top =>
      if !keepGoing && s.nErrors > 0 then { s with threads := s.threads.set t (.returned .ok) }
      else { s with threads := s.threads.set t .checked }
    | _ => s
  | .take t =>
    match s.threads[t]? with
    | some .checked =>
      if s.stop then { s with threads := s.threads.set t (.returned .ok) }
      else if s.idx < s.files then
        { s with idx := s.idx + 1, threads := s.threads.set t (.running s.idx) }
      else { s with threads := s.threads.set t (.returned .ok) }
    | _ => s
  | .exec t =>
    match s.threads[t]? with
    | some (.running i) =>
      match result i with
      | .ok => { s with threads := s.threads.set t .top, done := i :: s.done }
      | .err _ =>
        { s with
          nErrors := s.nErrors + 1
          threads := s.threads.set t (if keepGoing then .top else .returned .err)
          done := i :: s.done }
      | .panic => { s with threads := s.threads.set t (.returned .panic), done := i :: s.done }
    | _ => s
  | .settle t =>
    match s.threads[t]? with
    | some (.returned r) =>
      { s with
        stop := s.stop || r == .panic || (!keepGoing && r == .err)
        threads := s.threads.set t (.waiting r) }
    | _ => s

/-- A run. -/
def run (keepGoing : Bool) (result : Nat → Outcome) (s : Run) : List Op → Run
  | [] => s
  | op :: ops => run keepGoing result (step keepGoing result s op) ops

/-- Whether all threads have passed the barrier. -/
def finished (s : Run) : Bool := s.threads.all fun | .waiting _ => true | _ => false

/-- The end of `run` (compiled.rs:328-379): `true` is `Ok(())`, `false` is an error or `process::exit(1)`. -/
def verdict (s : Run) : Bool :=
  s.nErrors == 0 && (s.threads.filter fun | .waiting .ok => false | _ => true).length == 0

end Verif.Runner
