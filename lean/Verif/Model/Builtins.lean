import Verif.Model.MemJump
/-!
# Builtins called by compiled code

Models the gas, static-call and data-access logic of `crates/revmc-builtins/src/lib.rs`. A builtin is
a computation in `EStateM`: an error value (`BuiltinError`, utils.rs:10-12) or success, with the
state at that point. `fail` (lib.rs:76-81) leaves the compiled function with that error.

Simplifications: host answers, gas parameters and memory contents are arbitrary functions / abstract;
amounts are naturals with the `u64`/`usize` conversions written out (64-bit target); host state is
the list of state-changing requests made to it.
-/

namespace Verif.Builtins

/-- The `InstructionResult`s returned by the modelled builtins. -/
inductive Err
  | OutOfGas
  | MemoryOOG
  | InvalidOperandOOG
  | OutOfOffset
  | StateChangeDuringStaticCall
  | CallNotAllowedInsideStatic
  | ReentrancySentryOOG
  | CreateInitCodeSizeLimit
  | FatalExternalError
  | SelfDestruct
deriving DecidableEq, Repr

/-- `CallKind` (lib.rs:36-46). -/
inductive CallKind
  | call | callCode | delegateCall | staticCall
deriving DecidableEq, Repr

/-- The parts of `CallInputs` / `CreateInputs` that matter here (lib.rs:788-820, 688-695). -/
structure Child where
  gasLimit : Nat
  isStatic : Bool
  target : Nat
  caller : Nat
  /-- Value moved from `caller` to `target` (`CallValue::Transfer`); 0 for `CallValue::Apparent`. -/
  transfer : Nat
  isCreate : Bool
deriving DecidableEq, Repr

/-- State-changing requests to the host. -/
inductive HostWrite
  | sstore (addr : Nat) (key value : Word)
  | tstore (addr : Nat) (key value : Word)
  | log (addr : Nat) (topics : Nat)
  | selfdestruct (addr target : Nat)
deriving DecidableEq, Repr

/-- The parts of `EvmContext` used here. -/
structure Ecx where
  isStatic : Bool
  /-- `ecx.gas.remaining()`. -/
  gas : Nat
  /-- `ecx.gas.reservoir()` (EIP-8037 state gas). -/
  reservoir : Nat := 0
  /-- Current memory in words (`ecx.gas.memory().words_num`). -/
  words : Nat := 0
  host : List HostWrite := []
  nextAction : Option Child := none
  /-- `ecx.input.target_address` / `caller_address`. -/
  self : Nat := 0
  caller : Nat := 0
deriving DecidableEq, Repr

/-- Fork, gas parameters and host answers; all arbitrary. -/
structure Env where
  spec : SpecId
  /-- Total cost of `w` words of memory (`GasParams::memory_cost`). -/
  memCost : Nat → Nat
  copyCost : Nat → Nat
  transferValueCost : Nat
  callStipend : Nat
  /-- Divisor of `call_stipend_reduction`. -/
  stipendDiv : Nat
  sstoreStatic : Nat
  /-- Cost of the storage write found by the host, `none` if the host fails. -/
  sstoreDynamic : Word → Word → Option Nat
  logCost : Nat → Nat → Nat
  initcodeCost : Nat → Nat
  createCost : Nat
  create2Cost : Nat → Nat
  maxInitcode : Nat
  /-- `load_account_delegated`: error, or dynamic and state gas. -/
  loadDelegated : Nat → Bool → Bool → Except Err (Nat × Nat)
  /-- Whether EIP-8037 is on (`is_amsterdam_eip8037_enabled`). -/
  eip8037 : Bool
  createStateGas : Nat
  /-- Host answer to SELFDESTRUCT: error, or the gas to charge. -/
  selfdestructCost : Nat → Except Err Nat

/-- A builtin body. -/
abbrev M := EStateM Err Ecx

/-- `if c { m }`. -/
def cond (c : Prop) [Decidable c] (m : M Unit) : M Unit := if c then m else pure ()

/-- `gas!` (macros.rs:2-9): `record_regular_cost`, failing with `OutOfGas`. -/
def chargeGas (n : Nat) : M Unit := fun s =>
  if n ≤ s.gas then .ok () { s with gas := s.gas - n } else .error .OutOfGas s

/-- `state_gas!` (macros.rs:12-19): `record_state_cost` takes from the reservoir first and the rest
from the regular gas. `Gas::record_state_cost` is revm's; transcribed from its documentation. -/
def chargeState (n : Nat) : M Unit := fun s =>
  if n ≤ s.reservoir then .ok () { s with reservoir := s.reservoir - n }
  else if n - s.reservoir ≤ s.gas then
    .ok () { s with reservoir := 0, gas := s.gas - (n - s.reservoir) }
  else .error .OutOfGas s

/-- `ensure_non_staticcall!` (macros.rs:22-29). -/
def ensureNonStatic : M Unit := fun s =>
  if s.isStatic then .error .StateChangeDuringStaticCall s else .ok () s

/-- `try_into_usize!` (macros.rs:50-62). -/
def tryUsize (w : Word) : M Nat := fun s =>
  if w.toNat < 2 ^ 64 then .ok w.toNat s else .error .InvalidOperandOOG s

/-- `as_usize_saturated!` / `as_u64_saturated!`. -/
def satUsize (w : Word) : Nat := min w.toNat (2 ^ 64 - 1)

/-- `saturating_add` on `usize`. -/
def satAdd (a b : Nat) : Nat := min (a + b) (2 ^ 64 - 1)

/-- `ensure_memory` (utils.rs:86-96) with revm's `resize_memory`. -/
def ensureMemory (env : Env) (off len : Nat) : M Unit := fun s =>
  let w := numWords (satAdd off len)
  if s.words < w then
    let cost := env.memCost w - env.memCost s.words
    if cost ≤ s.gas then .ok () { s with gas := s.gas - cost, words := w }
    else .error .MemoryOOG s
  else .ok () s

/-- Adds a state-changing host request. -/
def hostWrite (h : HostWrite) : M Unit := fun s => .ok () { s with host := s.host ++ [h] }

/-- `ecx.spec_id.is_enabled_in(..)`. -/
def enabled (env : Env) (since : SpecId) : Bool := decide (since ≤ env.spec)

/-- `__revmc_builtin_sstore` (lib.rs:518-559). The host call and the charge for it are one step; cold
loads are part of the host's answer; refunds are left out. -/
def sstore (env : Env) (key value : Word) : M Unit := do
  ensureNonStatic
  let s ← get
  cond (enabled env SpecId.ISTANBUL ∧ s.gas ≤ env.callStipend) (throw .ReentrancySentryOOG)
  chargeGas env.sstoreStatic
  match env.sstoreDynamic key value with
  | none => throw .FatalExternalError
  | some c =>
    hostWrite (.sstore s.self key value)
    chargeGas c

/-- `__revmc_builtin_tstore` (lib.rs:566-575). -/
def tstore (key value : Word) : M Unit := do
  ensureNonStatic
  let s ← get
  hostWrite (.tstore s.self key value)

/-- `__revmc_builtin_log` (lib.rs:594-630). -/
def log (env : Env) (n : Nat) (offset len : Word) : M Unit := do
  ensureNonStatic
  let len ← tryUsize len
  chargeGas (env.logCost n len)
  cond (len ≠ 0) do
    let offset ← tryUsize offset
    ensureMemory env offset len
  let s ← get
  hostWrite (.log s.self n)

/-- `__revmc_builtin_selfdestruct` (lib.rs:866-896). -/
def selfdestruct (env : Env) (target : Nat) : M Unit := do
  ensureNonStatic
  let s ← get
  match env.selfdestructCost target with
  | .error e => throw e
  | .ok c =>
    hostWrite (.selfdestruct s.self target)
    chargeGas c
    throw .SelfDestruct

/-- `call_stipend_reduction` (revm): all but one `stipendDiv`-th. -/
def stipendReduction (env : Env) (g : Nat) : Nat := g - g / env.stipendDiv

/-- Sets `next_action`. -/
def setAction (c : Child) : M Unit := fun s => .ok () { s with nextAction := some c }

/-- `__revmc_builtin_create` (lib.rs:633-698). `isCreate2` selects `CreateKind::Create2`. The created
address is not known to the builtin; `target` is left 0. -/
def create (env : Env) (isCreate2 : Bool) (value codeOffset len : Word) : M Unit := do
  ensureNonStatic
  let len ← tryUsize len
  cond (len ≠ 0) do
    cond (enabled env SpecId.SHANGHAI) do
      cond (env.maxInitcode < len) (throw .CreateInitCodeSizeLimit)
      chargeGas (env.initcodeCost len)
    let off ← tryUsize codeOffset
    ensureMemory env off len
  chargeGas (if isCreate2 then env.create2Cost len else env.createCost)
  cond env.eip8037 (chargeState env.createStateGas)
  let s ← get
  let limit := if enabled env SpecId.TANGERINE then stipendReduction env s.gas else s.gas
  chargeGas limit
  setAction { gasLimit := limit, isStatic := false, target := 0, caller := s.self,
              transfer := value.toNat, isCreate := true }

/-- The memory range of one CALL operand pair (lib.rs:737-756). -/
def callRange (env : Env) (off len : Word) : M Unit := do
  let len ← tryUsize len
  cond (len ≠ 0) do
    let off ← tryUsize off
    ensureMemory env off len

/-- The tail of `__revmc_builtin_call` after the memory ranges (lib.rs:758-820). -/
def callTail (env : Env) (kind : CallKind) (reqGas : Nat) (to value : Nat) : M Unit := do
  cond (value ≠ 0) (chargeGas env.transferValueCost)
  match env.loadDelegated to (value ≠ 0) (kind = .call) with
  | .error e => throw e
  | .ok (dyn, stateGas) =>
    chargeGas dyn
    chargeState stateGas
    let s ← get
    let limit := if enabled env SpecId.TANGERINE then min (stipendReduction env s.gas) reqGas
      else reqGas
    chargeGas limit
    let limit' := if (kind = .call ∨ kind = .callCode) ∧ value ≠ 0 then satAdd limit env.callStipend
      else limit
    setAction
      { gasLimit := limit'
        isStatic := s.isStatic || decide (kind = .staticCall)
        target := if kind = .delegateCall ∨ kind = .callCode then s.self else to
        caller := if kind = .delegateCall then s.caller else s.self
        transfer := if kind = .delegateCall then 0 else value
        isCreate := false }

/-- `__revmc_builtin_call` (lib.rs:701-823). DELEGATECALL and STATICCALL have no value operand. -/
def call (env : Env) (kind : CallKind) (reqGas : Word) (to : Nat) (value inOff inLen outOff outLen : Word) :
    M Unit := do
  let s ← get
  let value := if kind = .call ∨ kind = .callCode then value.toNat else 0
  cond (kind = .call ∧ s.isStatic ∧ value ≠ 0) (throw .CallNotAllowedInsideStatic)
  callRange env inOff inLen
  callRange env outOff outLen
  callTail env kind (satUsize reqGas) to value

/-! ## Data access -/

/-- `do_calldataload` (lib.rs:249-265) after `as_usize_saturated!` (lib.rs:234-238). `input` is the
call data; `word` starts as 32 zero bytes. -/
def calldataload (input : List UInt8) (offset : Word) : Word :=
  let off := satUsize offset
  let word := if off < input.length then
      let count := min 32 (input.length - off)
      (input.drop off).take count ++ List.replicate (32 - count) 0
    else List.replicate 32 0
  fromBeSlice word

/-- `__revmc_builtin_calldataload_c` (lib.rs:241-247) with a constant offset below 2^64
(peephole.rs:279-300). -/
def calldataloadC (input : List UInt8) (offset : BitVec 64) : Word :=
  let off := offset.toNat
  let word := if off < input.length then
      let count := min 32 (input.length - off)
      (input.drop off).take count ++ List.replicate (32 - count) 0
    else List.replicate 32 0
  fromBeSlice word

/-- `__revmc_builtin_returndatacopy` (lib.rs:342-363): returns the memory write performed, if any. -/
def returndatacopy (env : Env) (ret : List UInt8) (memOffset offset len : Word) :
    M (Option (Nat × List UInt8)) := do
  let len ← tryUsize len
  let dataOff := satUsize offset
  let dataEnd := satAdd dataOff len
  cond (ret.length < dataEnd) (throw .OutOfOffset)
  chargeGas (env.copyCost len)
  if len ≠ 0 then
    let m ← tryUsize memOffset
    ensureMemory env m len
    return some (m, (ret.drop dataOff).take (dataEnd - dataOff))
  else return none

/-- `__revmc_builtin_blockhash` (lib.rs:378-411): the block number the host is asked for (`none`: not
asked, the result is 0). -/
def blockhash (blockNumber requested : Word) : Option Nat :=
  if blockNumber.toNat < requested.toNat then none
  else
    let diff := satUsize (blockNumber - requested)
    if diff = 0 then none
    else if diff ≤ 256 then some (satUsize requested)
    else none

end Verif.Builtins
