import Verif.Model.Opcode
/-!
# Settings passed to the out-of-process helper, CPU limit, startup preload

Models the settings half of `crates/revmc-runtime/src/runtime/out_of_process.rs`, the compiler set-up
of `worker.rs`, and the preload loop of `mod.rs`. The byte encoding of messages (`wincode`, external
crate) is not modelled: a message arrives as it was sent.
-/

namespace Verif.Helper

/-- `OptimizationLevel` (revmc-backend/src/traits.rs:61-74). -/
inductive OptLevel
  | none | less | default | aggressive
deriving DecidableEq, Repr

/-- `PathBuf`, seen through `Utf8Chunks` (std): a sequence of characters and of maximal invalid byte
runs. Used for `RuntimeConfig::dump_dir` (config.rs:43). -/
abbrev Path := List (Char ⊕ List UInt8)

/-- `Path::to_string_lossy` (std; used at out_of_process.rs:871): each invalid run becomes U+FFFD. -/
def toStringLossy (p : Path) : List Char :=
  p.map fun
    | .inl c => c
    | .inr _ => '�'

/-- `PathBuf::from(String)` (std; used at out_of_process.rs:880). -/
def pathFrom (s : List Char) : Path := s.map .inl

/-- `GasParams` (revm, external): one 64-bit value per one-byte id; `get` is application
(out_of_process.rs:834-841). -/
abbrev GasParams := UInt8 → UInt64

/-- The part of `RuntimeConfig`/`RuntimeTuning` (config.rs:17-134, 230-336) that a compilation reads,
plus the two fields that the helper does not receive (`aot_opt_level`, `jit_opt_level`). The other
fields (thread name, store, channel sizes, …) are not read by `compile_with_state`. -/
structure Config where
  debugAssertions : Bool
  singleError : Bool
  noDedup : Bool
  noDse : Bool
  dumpDir : Option Path
  gasParams : Option GasParams
  jitWorkerCount : Nat
  compilerRecycleThreshold : Nat
  jitOptLevel : OptLevel
  aotOptLevel : OptLevel

/-- `RuntimeConfig::default` (config.rs:206-226) with `RuntimeTuning::default` (config.rs:350-375);
`cpus` is `available_parallelism` on the machine that evaluates it. -/
def Config.default (cpus : Nat) : Config where
  debugAssertions := false
  singleError := true
  noDedup := false
  noDse := false
  dumpDir := none
  gasParams := none
  jitWorkerCount := max 1 (min 4 ((cpus + 1) / 2))
  compilerRecycleThreshold := 1000
  jitOptLevel := .default
  aotOptLevel := .default

/-- `HelperInit` (out_of_process.rs:500-510). -/
structure Init where
  debugAssertions : Bool
  singleError : Bool
  noDedup : Bool
  noDse : Bool
  dumpDir : Option (List Char)
  gasParams : Option (List (UInt8 × UInt64))
  jitWorkerCount : Nat
  compilerRecycleThreshold : Nat

/-- Reasons for a helper-side `eyre::bail!`. -/
inductive Err
  | badLength | duplicateId | missingId | badOptLevel | badSpec
deriving DecidableEq, Repr

/-- `opt_level_to_u8` (out_of_process.rs:815-822). -/
def optLevelToU8 : OptLevel → UInt8
  | .none => 0
  | .less => 1
  | .default => 2
  | .aggressive => 3

/-- `opt_level_from_u8` (out_of_process.rs:824-832). -/
def optLevelFromU8 (l : UInt8) : Except Err OptLevel :=
  if l = 0 then .ok .none
  else if l = 1 then .ok .less
  else if l = 2 then .ok .default
  else if l = 3 then .ok .aggressive
  else .error .badOptLevel

/-- `GAS_PARAM_COUNT` (out_of_process.rs:39). -/
def GAS_PARAM_COUNT : Nat := 256

/-- `gas_params_to_pairs` (out_of_process.rs:834-841). -/
def gasParamsToPairs (g : GasParams) : List (UInt8 × UInt64) :=
  (List.range GAS_PARAM_COUNT).map fun i => (UInt8.ofNat i, g (UInt8.ofNat i))

/-- The loop of `gas_params_from_pairs` (out_of_process.rs:850-857). Arrays indexed by a byte are
functions. -/
def fillTable : List (UInt8 × UInt64) → GasParams → (UInt8 → Bool) →
    Except Err (GasParams × (UInt8 → Bool))
  | [], t, s => .ok (t, s)
  | (id, v) :: r, t, s =>
    if s id then .error .duplicateId
    else fillTable r (fun j => if j = id then v else t j) (fun j => if j = id then true else s j)

/-- `gas_params_from_pairs` (out_of_process.rs:843-863). -/
def gasParamsFromPairs (pairs : List (UInt8 × UInt64)) : Except Err GasParams :=
  if pairs.length ≠ GAS_PARAM_COUNT then .error .badLength
  else
    match fillTable pairs (fun _ => 0) (fun _ => false) with
    | .error e => .error e
    | .ok (t, s) =>
      if (List.range GAS_PARAM_COUNT).any (fun i => !s (UInt8.ofNat i)) then .error .missingId
      else .ok t

/-- `helper_init` (out_of_process.rs:865-876). -/
def helperInit (c : Config) : Init where
  debugAssertions := c.debugAssertions
  singleError := c.singleError
  noDedup := c.noDedup
  noDse := c.noDse
  dumpDir := c.dumpDir.map toStringLossy
  gasParams := c.gasParams.map gasParamsToPairs
  jitWorkerCount := c.jitWorkerCount
  compilerRecycleThreshold := c.compilerRecycleThreshold

/-- `init.gas_params.map(gas_params_from_pairs).transpose()?` (out_of_process.rs:885). -/
def decodeGas : Option (List (UInt8 × UInt64)) → Except Err (Option GasParams)
  | none => .ok none
  | some ps =>
    match gasParamsFromPairs ps with
    | .error e => .error e
    | .ok g => .ok (some g)

/-- `runtime_config_from_init` (out_of_process.rs:878-891), on a machine with `cpus` processors. -/
def configFromInit (cpus : Nat) (i : Init) : Except Err Config :=
  match decodeGas i.gasParams with
  | .error e => .error e
  | .ok g =>
    .ok { Config.default cpus with
      dumpDir := i.dumpDir.map pathFrom
      debugAssertions := i.debugAssertions
      singleError := i.singleError
      noDedup := i.noDedup
      noDse := i.noDse
      gasParams := g
      jitWorkerCount := i.jitWorkerCount
      compilerRecycleThreshold := i.compilerRecycleThreshold }

/-- `CompileJob` (worker.rs:70-86), without the notifier and the generation, which the helper does
not receive (out_of_process.rs:747-756). -/
structure Job where
  codeHash : BitVec 256
  spec : SpecId
  bytecode : List UInt8
  symbol : String
  optLevel : OptLevel

/-- `HelperCompile` (out_of_process.rs:520-528). -/
structure Compile where
  id : Nat
  codeHash : BitVec 256
  spec : UInt8
  optLevel : UInt8
  symbol : String
  bytecode : List UInt8

/-- `write_job` (out_of_process.rs:561-575); `spec_id as u8` keeps the low byte. -/
def writeJob (id : Nat) (j : Job) : Compile where
  id := id
  codeHash := j.codeHash
  spec := UInt8.ofNat j.spec
  optLevel := optLevelToU8 j.optLevel
  symbol := j.symbol
  bytecode := j.bytecode

/-- `SpecId::try_from_u8` (revm, external): the fifteen forks of `Verif.SpecId`. -/
def specFromU8 (b : UInt8) : Option SpecId := if b.toNat ≤ SpecId.AMSTERDAM then some b.toNat else none

/-- `read_helper_request`, compile case (out_of_process.rs:738-758). -/
def readJob (r : Compile) : Except Err (Nat × Job) :=
  match specFromU8 r.spec with
  | none => .error .badSpec
  | some spec =>
    match optLevelFromU8 r.optLevel with
    | .error e => .error e
    | .ok l => .ok (r.id, { codeHash := r.codeHash, spec, bytecode := r.bytecode, symbol := r.symbol,
                            optLevel := l })

/-- Everything the compiler is configured with when it compiles one job. -/
structure Settings where
  optLevel : OptLevel
  debugAssertions : Bool
  singleError : Bool
  dedup : Bool
  dse : Bool
  /-- `None` means the default schedule of the fork. -/
  gasParams : Option GasParams
  /-- Base directory and per-contract subdirectory for dumps. -/
  dumpTo : Option (Path × SpecId × BitVec 256)
  spec : SpecId
  symbol : String
  bytecode : List UInt8

/-- `CompilerTarget` (worker.rs:400-413). -/
inductive Target
  | jit | jitObject | aot
deriving DecidableEq, Repr

/-- `create_compiler` (worker.rs:524-543) followed by the per-job set-up in `compile_with_state`
(worker.rs:453-460), for a JIT job. `create_compiler` first sets the level from the configuration;
`set_opt_level(job.opt_level)` then overrides it before anything is compiled. -/
def compilerSettings (c : Config) (target : Target) (j : Job) : Settings :=
  let created := match target with
    | .jit => c.jitOptLevel
    | .jitObject => c.aotOptLevel
    | .aot => c.aotOptLevel
  let s : Settings :=
    { optLevel := created
      debugAssertions := c.debugAssertions
      singleError := c.singleError
      dedup := !c.noDedup
      dse := !c.noDse
      gasParams := c.gasParams
      dumpTo := c.dumpDir.map fun d => (d, j.spec, j.codeHash)
      spec := j.spec
      symbol := j.symbol
      bytecode := j.bytecode }
  { s with optLevel := j.optLevel }

/-! ## CPU limit -/

/-- The loop of `limit_cpu_affinity` (out_of_process.rs:473-481). `current` is the mask from CPU
number `cpu` on; the result is the mask for the helper and the final `remaining`. `remaining -= 1` is
on `usize`; it is only reached with `remaining > 0`. -/
def pickCpus : List Bool → Nat → List Bool × Nat
  | [], rem => ([], rem)
  | false :: r, rem => (false :: (pickCpus r rem).1, (pickCpus r rem).2)
  | true :: r, rem =>
    if rem - 1 = 0 then (true :: r.map (fun _ => false), 0)
    else (true :: (pickCpus r (rem - 1)).1, (pickCpus r (rem - 1)).2)

/-- `limit_cpu_affinity` (out_of_process.rs:464-493). `none`: the call fails and the helper is not
started. The system calls are taken to succeed. -/
def limitCpuAffinity (current : List Bool) (cpuCount : Nat) : Option (List Bool) :=
  let r := pickCpus current cpuCount
  if r.2 = cpuCount then none else some r.1

/-- The CPU part of `apply_helper_limits` (out_of_process.rs:413-416): the mask the helper runs
with, or `none` if it is not started. -/
def helperMask (current : List Bool) (cpuCount : Nat) : Option (List Bool) :=
  if cpuCount > 0 then limitCpuAffinity current cpuCount else some current

/-! ## Startup preload -/

/-- The loop of `preload_aot` (mod.rs:512-538): `load` is `load_artifact` (mod.rs:545-561), with
`none` for an error; `key` is `artifact_key.runtime`. `out` is in insertion order. -/
def preloadLoop {A K P : Type} [DecidableEq K] (key : A → K) (load : A → Option P) :
    List A → List K → List (K × P)
  | [], _ => []
  | a :: r, seen =>
    match load a with
    | none => preloadLoop key load r seen
    | some p =>
      if key a ∈ seen then preloadLoop key load r seen
      else (key a, p) :: preloadLoop key load r (key a :: seen)

/-- The resident map after `ensure_started` (mod.rs:466-471): the preloaded pairs inserted in order,
so a later pair for the same key would win. -/
def residentAfter {K P : Type} [DecidableEq K] : List (K × P) → K → Option P
  | [], _ => none
  | (k, p) :: r, q =>
    match residentAfter r q with
    | some p' => some p'
    | none => if k = q then some p else none

/-- `preload_aot` (mod.rs:494-542) plus the insertion loop of `ensure_started` (mod.rs:465-471).
`artifacts` is `store.load_all()`. -/
def preload {A K P : Type} [DecidableEq K] (key : A → K) (load : A → Option P) (artifacts : List A) :
    K → Option P :=
  residentAfter (preloadLoop key load artifacts [])

end Verif.Helper
