/-!
# Model: comparing the interpreter with compiled code on the command line

`crates/revmc-statetest/src/diagnostic.rs`, `crates/revmc-cli/src/cmd/statetest_diff.rs` and the loading of benchmarks in
`crates/revmc-cli/src/fixture.rs`. What an EVM does with a test is an arbitrary function, for compiled code of the
state of the backend too, which the tests share. Strings are lists of characters; what is printed is left out.
-/

namespace Verif.Diff

/-- `ExecResult` (diagnostic.rs:14-15), without logs and refund; reasons and errors are as they print
(`{reason:?}`, `to_string`). -/
inductive Res (B : Type)
  | success (reason : List Char) (output : B) (gas : Nat)
  | revert (output : B) (gas : Nat)
  | halt (reason : List Char) (gas : Nat)
  | error (msg : List Char)
deriving DecidableEq, Repr

/-- `ExecStatus` (diagnostic.rs:30-35). -/
inductive Status
  | success (r : List Char)
  | revert
  | halt (r : List Char)
  | error (e : List Char)
deriving DecidableEq, Repr

/-- `Display` of `ExecStatus` (diagnostic.rs:37-46). -/
def Status.display : Status → List Char
  | .success r => ['S', 'u', 'c', 'c', 'e', 's', 's', '('] ++ r ++ [')']
  | .revert => ['R', 'e', 'v', 'e', 'r', 't']
  | .halt r => ['H', 'a', 'l', 't', '('] ++ r ++ [')']
  | .error e => ['E', 'r', 'r', 'o', 'r', '('] ++ e ++ [')']

/-- `ExecutionSnapshot` (diagnostic.rs:19-26) without the dump, which is not compared. -/
structure Snap (B H : Type) where
  status : Status
  output : Option B
  gasUsed : Nat
  stateRoot : H
  logsRoot : H
deriving DecidableEq, Repr

/-- `snapshot_from_result` (diagnostic.rs:48-76); the roots are those of `compute_test_roots`. `output()` is revm's:
there is none for a halt. -/
def snapshot {B H : Type} (r : Res B) (stateRoot logsRoot : H) : Snap B H :=
  match r with
  | .success s b g => ⟨.success s, some b, g, stateRoot, logsRoot⟩
  | .revert b g => ⟨.revert, some b, g, stateRoot, logsRoot⟩
  | .halt s g => ⟨.halt s, none, g, stateRoot, logsRoot⟩
  | .error e => ⟨.error e, none, 0, stateRoot, logsRoot⟩

/-- `Mismatch::field` (diagnostic.rs:199-203). -/
inductive Field
  | status | output | gasUsed | stateRoot | logsRoot
deriving DecidableEq, Repr

/-- `compare` (diagnostic.rs:154-196). -/
def compare {B H : Type} [DecidableEq B] [DecidableEq H] (a b : Snap B H) : List Field :=
  (if a.status.display ≠ b.status.display then [.status] else []) ++
  (if a.output ≠ b.output then [.output] else []) ++
  (if a.gasUsed ≠ b.gasUsed then [.gasUsed] else []) ++
  (if a.stateRoot ≠ b.stateRoot then [.stateRoot] else []) ++
  (if a.logsRoot ≠ b.logsRoot then [.logsRoot] else [])

/-- One entry of `tests` (statetest_diff.rs:116-126): `txOk` is false if `tx_env` fails, which is skipped with or without
a message. -/
structure Test (T : Type) where
  txOk : Bool
  test : T

/-- One entry of `unit.post` (statetest_diff.rs:92-103); `wanted` is false if `--spec` names another fork. -/
structure Post (T : Type) where
  constantinople : Bool
  wanted : Bool
  tests : List (Test T)

/-- One entry of the suite (statetest_diff.rs:79-84); `wanted` is false if `--name` does not occur in its name. -/
structure DUnit (T : Type) where
  wanted : Bool
  post : List (Post T)

/-- A file (statetest_diff.rs:56-75): skipped by `skip_test`, unreadable, not a suite, or its units. -/
inductive File (T : Type)
  | skipped
  | unreadable
  | unparsable
  | suite (units : List (DUnit T))

/-- The counters (statetest_diff.rs:51-54) and the backend, whose state is `K`. -/
structure St (K : Type) where
  backend : K
  total : Nat := 0
  mismatches : Nat := 0
  files : Nat := 0
  skipped : Nat := 0
deriving DecidableEq, Repr

section
variable {B H K T : Type} [DecidableEq B] [DecidableEq H] (interp : T → Snap B H) (jit : K → T → Snap B H × K)
  (keepGoing : Bool)

/-- The loop over the tests (statetest_diff.rs:116-164); `none` is `process::exit(1)`. -/
def runTests (s : St K) : List (Test T) → Option (St K)
  | [] => some s
  | t :: ts =>
    if !t.txOk then runTests s ts
    else
      let r := jit s.backend t.test
      let s := { s with backend := r.2, total := s.total + 1 }
      if (compare (interp t.test) r.1).isEmpty then runTests s ts
      else
        let s := { s with mismatches := s.mismatches + 1 }
        if keepGoing then runTests s ts else none

/-- The loop over the forks (statetest_diff.rs:92-165). -/
def runPosts (s : St K) : List (Post T) → Option (St K)
  | [] => some s
  | p :: ps =>
    if p.constantinople || !p.wanted then runPosts s ps
    else (runTests interp jit keepGoing s p.tests).bind fun s => runPosts s ps

/-- The loop over the units (statetest_diff.rs:79-166). -/
def runUnits (s : St K) : List (DUnit T) → Option (St K)
  | [] => some s
  | u :: us =>
    if !u.wanted then runUnits s us
    else (runPosts interp jit keepGoing s u.post).bind fun s => runUnits s us

/-- The loop over the files (statetest_diff.rs:56-167). -/
def runFiles (s : St K) : List (File T) → Option (St K)
  | [] => some s
  | .skipped :: fs => runFiles { s with skipped := s.skipped + 1 } fs
  | .unreadable :: fs => runFiles s fs
  | .unparsable :: fs => runFiles s fs
  | .suite us :: fs => (runUnits interp jit keepGoing { s with files := s.files + 1 } us).bind fun s => runFiles s fs

/-- How the command ends: with an error message, with exit code 1, or well, with the counters. -/
inductive Exit (K : Type)
  | error
  | failure
  | ok (s : St K)
deriving DecidableEq, Repr

/-- `StatetestDiffArgs::run` (statetest_diff.rs:33-177), for a path that exists. -/
def run (k : K) (files : List (File T)) : Exit K :=
  if files.isEmpty then .error
  else
    match runFiles interp jit keepGoing { backend := k } files with
    | none => .failure
    | some s => if s.mismatches > 0 then .failure else .ok s

end

/-! ## Benchmarks -/

/-- `ParsedAccount` (fixture.rs:86-94): its code and the hash of it. -/
structure Acct (H : Type) where
  code : List UInt8
  hash : H

/-- `B256Map::insert`. -/
def insert {H F : Type} [DecidableEq H] (m : List (H × F)) (h : H) (f : F) : List (H × F) :=
  (h, f) :: m.filter (fun e => e.1 ≠ h)

/-- `B256Map::get`. -/
def get {H F : Type} [DecidableEq H] (m : List (H × F)) (h : H) : Option F := (m.find? (fun e => e.1 = h)).map (·.2)

section
variable {H F : Type} [DecidableEq H]

/-- The loop that translates (fixture.rs:167-176): what is pending afterwards. -/
def translateAll (translate : List UInt8 → F) : List H → List (H × F) → List (Acct H) → List (H × F)
  | _, pending, [] => pending
  | seen, pending, a :: as =>
    if a.code.isEmpty || decide (a.hash ∈ seen) then translateAll translate seen pending as
    else translateAll translate (a.hash :: seen) (pending ++ [(a.hash, translate a.code)]) as

/-- `load_with_pending_functions` (fixture.rs:152-192): the functions of the benchmark. A function is what
`jit_function` gives for its id; `translate` and `jit_function` panic if they fail, which is left out. -/
def loadPending (translate : List UInt8 → F) (functions pending : List (H × F)) (accounts : List (Acct H)) : List (H × F) :=
  (translateAll translate (functions.map (·.1) ++ pending.map (·.1)) pending accounts).foldl
    (fun m e => insert m e.1 e.2) functions

/-- `load_from_library` (fixture.rs:198-231): `symbol` is the function found under the one name that is looked up. -/
def loadLibrary (symbol : F) : List H → List (H × F) → List (Acct H) → List (H × F)
  | _, m, [] => m
  | seen, m, a :: as =>
    if a.code.isEmpty || decide (a.hash ∈ seen) then loadLibrary symbol seen m as
    else loadLibrary symbol (a.hash :: seen) (insert m a.hash symbol) as

end

/-- `is_success` of revm. -/
def Res.isSuccess {B : Type} : Res B → Bool
  | .success .. => true
  | _ => false

/-- Whether `transact` gave a result at all. -/
def Res.isError {B : Type} : Res B → Bool
  | .error _ => true
  | _ => false

/-- `sanity_check` (fixture.rs:374-393): whether it does not panic. The runs panic on an error (fixture.rs:359,
370). -/
def sanityCheck {B : Type} (assertSuccess : Bool) (interp jit : Res B) : Bool :=
  !interp.isError && !jit.isError && (!assertSuccess || interp.isSuccess) && (interp.isSuccess == jit.isSuccess)

end Verif.Diff
