import Verif.Spec.Access
import Verif.Model.Frames
/-!
# Builtins that read and write the state

Models `load_account` (`revmc-builtins/src/utils.rs`:52-68) and the builtins for BALANCE, EXTCODESIZE, EXTCODEHASH,
SELFBALANCE, DIFFICULTY, BLOBHASH, SLOAD, SSTORE, TLOAD, TSTORE and SELFDESTRUCT (`revmc-builtins/src/lib.rs`), each
after the section head has charged the opcode's base gas (`bytecode/info.rs`:94-190).

Transcribed from revm, not part of /repo: the journal behind `Host` (what is loaded becomes warm; a cold load that is to
be skipped is an error and touches nothing), `GasParams`, `SStoreResult` and the static gas table. The journal's
self-destruct is recorded, its effect on balances is left out. The database answers or fails; every request to it is
recorded.
-/

namespace Verif.Access

open Verif.Builtins (Err)
open Verif.Frames (atSp)
open Verif.Spec (Ledger)

/-- `GasParams` (revm). -/
structure GasParams where
  coldAccountAdditional : Nat
  coldStorageAdditional : Nat
  coldStorage : Nat
  warmStorageRead : Nat
  callStipend : Nat
  sstoreStatic : Nat
  sstoreSet : Nat
  sstoreReset : Nat
  sstoreSetRefund : Nat
  sstoreResetRefund : Nat
  sstoreClearing : Nat
  newAccountSelfdestruct : Nat
  selfdestructRefund : Nat

/-- `GasParams::new_spec` (revm): each fork overwrites entries of the one before. -/
def GasParams.of (spec : SpecId) : GasParams :=
  let g : GasParams :=
    { coldAccountAdditional := 0, coldStorageAdditional := 0, coldStorage := 0, warmStorageRead := 0
      callStipend := 2300, sstoreStatic := 5000, sstoreSet := 15000, sstoreReset := 0
      sstoreSetRefund := 15000, sstoreResetRefund := 0, sstoreClearing := 15000
      newAccountSelfdestruct := 0, selfdestructRefund := 24000 }
  let g := if SpecId.TANGERINE ≤ spec then { g with newAccountSelfdestruct := 25000 } else g
  let g := if SpecId.ISTANBUL ≤ spec then
    { g with sstoreStatic := 800, sstoreSet := 20000 - 800, sstoreReset := 5000 - 800
             sstoreSetRefund := 20000 - 800, sstoreResetRefund := 5000 - 800 } else g
  let g := if SpecId.BERLIN ≤ spec then
    { g with sstoreStatic := 100, coldAccountAdditional := 2500, coldStorageAdditional := 2000
             coldStorage := 2100, warmStorageRead := 100
             sstoreReset := 2900 - 100, sstoreSet := 20000 - 100
             sstoreSetRefund := 20000 - 100, sstoreResetRefund := 2900 - 100 } else g
  if SpecId.LONDON ≤ spec then { g with sstoreClearing := 4800, selfdestructRefund := 0 } else g

/-- `SStoreResult` (revm). -/
structure SStore where
  original : Word
  present : Word
  new : Word

/-- `GasParams::sstore_dynamic_gas` (revm), called at lib.rs:544. -/
def GasParams.sstoreDynamic (g : GasParams) (isIstanbul : Bool) (v : SStore) (cold : Bool) : Nat :=
  if !isIstanbul then
    if v.present == 0 && v.new != 0 then g.sstoreSet else g.sstoreReset
  else
    (if cold then g.coldStorage else 0) +
      (if v.new != v.present && v.original == v.present then
        (if v.original == 0 then g.sstoreSet else g.sstoreReset) else 0)

/-- `GasParams::sstore_refund` (revm), called at lib.rs:556. -/
def GasParams.sstoreRefund (g : GasParams) (isIstanbul : Bool) (v : SStore) : Int :=
  if !isIstanbul then
    if v.present != 0 && v.new == 0 then g.sstoreClearing else 0
  else if v.new == v.present then 0
  else if v.original == v.present && v.new == 0 then g.sstoreClearing
  else
    (if v.original != 0 then
      (if v.present == 0 then -(g.sstoreClearing : Int) else if v.new == 0 then g.sstoreClearing else 0) else 0) +
    (if v.original == v.new then
      (if v.original == 0 then (g.sstoreSetRefund : Int) else g.sstoreResetRefund) else 0)

/-- `GasParams::selfdestruct_cold_cost` (revm), called at lib.rs:872. -/
def GasParams.selfdestructCold (g : GasParams) : Nat := g.coldAccountAdditional + g.warmStorageRead

/-- `GasParams::selfdestruct_cost` (revm), called at lib.rs:884. -/
def GasParams.selfdestruct (g : GasParams) (topup cold : Bool) : Nat :=
  (if topup then g.newAccountSelfdestruct else 0) + (if cold then g.selfdestructCold else 0)

/-- revm's static gas table (`gas_table_spec`) at the opcodes modelled here, read at info.rs:195-199. SSTORE's entry is
not used (info.rs:122); it is not zero here so that using it would show. -/
def staticGas (spec : SpecId) (o : UInt8) : BitVec 16 :=
  if o = op.BALANCE then
    if SpecId.BERLIN ≤ spec then 100 else if SpecId.ISTANBUL ≤ spec then 700
    else if SpecId.TANGERINE ≤ spec then 400 else 20
  else if o = op.EXTCODESIZE then
    if SpecId.BERLIN ≤ spec then 100 else if SpecId.TANGERINE ≤ spec then 700 else 20
  else if o = op.EXTCODEHASH then
    if SpecId.BERLIN ≤ spec then 100 else if SpecId.ISTANBUL ≤ spec then 700 else 400
  else if o = op.SLOAD then
    if SpecId.BERLIN ≤ spec then 100 else if SpecId.ISTANBUL ≤ spec then 800
    else if SpecId.TANGERINE ≤ spec then 200 else 50
  else if o = op.SELFDESTRUCT then
    if SpecId.TANGERINE ≤ spec then 5000 else 0
  else if o = op.SELFBALANCE then 5
  else if o = op.DIFFICULTY then 2
  else if o = op.BLOBHASH then 3
  else if o = op.TLOAD ∨ o = op.TSTORE ∨ o = op.SSTORE then 100
  else 0

/-- Requests to the database. -/
inductive Query
  | account (a : Nat)
  | slot (a : Nat) (k : Word)
deriving DecidableEq, Repr

/-- The parts of `EvmContext` used here (revmc-context/src/lib.rs:84-130), the journal and the requests to the
database. -/
structure Cx where
  gas : Nat
  refund : Int
  reservoir : Nat
  world : Ledger
  queries : List Query

/-- What does not change: fork, input, block and transaction, whether the database answers a request, and the
amounts of EIP-8037 (`sstore_state_gas`, `sstore_state_gas_refill`, `new_account_state_gas`; revm). -/
structure Env where
  spec : SpecId
  self : Nat
  isStatic : Bool
  difficulty : Word
  prevRandao : Option Word
  blobs : List Word
  db : Query → Bool
  eip8037 : Bool
  sstoreState : SStore → Nat
  sstoreRefill : SStore → Nat
  newAccountState : Nat

/-- Why a builtin does not return. -/
inductive Stop
  | err (e : Err)
  /-- `unwrap` on `None`. -/
  | panic
deriving DecidableEq, Repr

/-- A builtin body. -/
abbrev M := EStateM Stop Cx

/-- `gas!` (macros.rs:2-9). -/
def charge (n : Nat) : M Unit := fun s =>
  if n ≤ s.gas then .ok () { s with gas := s.gas - n } else .error (.err .OutOfGas) s

/-- `state_gas!` (macros.rs:12-19) with revm's `record_state_cost`. -/
def chargeState (n : Nat) : M Unit := fun s =>
  if n ≤ s.reservoir then .ok () { s with reservoir := s.reservoir - n }
  else if n - s.reservoir ≤ s.gas then .ok () { s with reservoir := 0, gas := s.gas - (n - s.reservoir) }
  else .error (.err .OutOfGas) s

/-- `ensure_non_staticcall!` (macros.rs:22-29). -/
def ensureNonStatic (env : Env) : M Unit :=
  if env.isStatic then throw (.err .StateChangeDuringStaticCall) else pure ()

/-- `ecx.spec_id.is_enabled_in(..)`. -/
def enabled (env : Env) (since : SpecId) : Bool := decide (since ≤ env.spec)

/-- `EvmWord::to_address`: the low 20 bytes. -/
def toAddress (w : Word) : Nat := (w.truncate 160).toNat

/-- A request to the database (`DBError` becomes `FatalExternalError`, utils.rs:30-38). -/
def ask (env : Env) (q : Query) : M Unit := fun s =>
  let s := { s with queries := s.queries ++ [q] }
  if env.db q then .ok () s else .error (.err .FatalExternalError) s

/-- `Host::load_account_info_skip_cold_load` (revm): whether the account was cold. `ColdLoadSkipped` becomes `OutOfGas`
(utils.rs:30-38). -/
def hostLoadAccount (env : Env) (a : Nat) (skipCold : Bool) : M Bool := do
  let s ← get
  if s.world.accessed a then pure false
  else if skipCold then throw (.err .OutOfGas)
  else
    ask env (.account a)
    modify fun s => { s with world := s.world.touch a }
    pure true

/-- `Host::sload_skip_cold_load` (revm): the value and whether the slot was cold. -/
def hostSload (env : Env) (a : Nat) (k : Word) (skipCold : Bool) : M (Word × Bool) := do
  let s ← get
  if s.world.accessedSlot a k then pure (s.world.storage a k, false)
  else if skipCold then throw (.err .OutOfGas)
  else
    ask env (.slot a k)
    modify fun s => { s with world := s.world.touchSlot a k }
    pure (s.world.storage a k, true)

/-- `Host::sstore_skip_cold_load` (revm): writes unless nothing changes. -/
def hostSstore (env : Env) (a : Nat) (k v : Word) (skipCold : Bool) : M (SStore × Bool) := do
  let (present, cold) ← hostSload env a k skipCold
  let s ← get
  let r : SStore := { original := s.world.original a k, present, new := v }
  if present == v then pure (r, cold)
  else
    modify fun s => { s with world := s.world.write a k v }
    pure (r, cold)

/-- `SelfDestructResult` (revm). -/
structure Destroyed where
  hadValue : Bool
  targetExists : Bool
  previously : Bool
  cold : Bool

/-- `Host::selfdestruct` (revm). -/
def hostSelfdestruct (env : Env) (a target : Nat) (skipCold : Bool) : M Destroyed := do
  let cold ← hostLoadAccount env target skipCold
  let s ← get
  let w := s.world
  modify fun s => { s with world := { s.world with destroyed := (a, target) :: s.world.destroyed } }
  pure {
    hadValue := w.balance a != 0
    targetExists := if enabled env SpecId.SPURIOUS_DRAGON then !w.empty target else !w.missing target
    previously := w.destroyed.any fun x => x.1 == a
    cold }

/-- `load_account` (utils.rs:52-68). -/
def loadAccount (env : Env) (a : Nat) : M Unit := do
  let coldLoadGas := (GasParams.of env.spec).coldAccountAdditional
  let s ← get
  let skipColdLoad := decide (s.gas < coldLoadGas)
  let isCold ← hostLoadAccount env a skipColdLoad
  if isCold then charge coldLoadGas else pure ()

/-- `__revmc_builtin_balance` (lib.rs:216-225). -/
def balance (env : Env) (args : List Word) : M (Option Word) := do
  let a := toAddress (atSp args 0)
  loadAccount env a
  let s ← get
  pure (some (s.world.balance a))

/-- `__revmc_builtin_extcodesize` (lib.rs:305-314). -/
def extcodesize (env : Env) (args : List Word) : M (Option Word) := do
  let a := toAddress (atSp args 0)
  loadAccount env a
  let s ← get
  pure (some (BitVec.ofNat 256 (s.world.code a).length))

/-- `__revmc_builtin_extcodehash` (lib.rs:364-374). -/
def extcodehash (env : Env) (args : List Word) : M (Option Word) := do
  let a := toAddress (atSp args 0)
  loadAccount env a
  let s ← get
  pure (some (if s.world.empty a then 0 else s.world.codeHash a))

/-- `__revmc_builtin_self_balance` (lib.rs:446-454); `Host::balance` (revm) loads the account. -/
def selfBalance (env : Env) : M (Option Word) := do
  let _ ← hostLoadAccount env env.self false
  let s ← get
  pure (some (s.world.balance env.self))

/-- `__revmc_builtin_difficulty` (lib.rs:427-434). -/
def difficulty (env : Env) : M (Option Word) :=
  if enabled env SpecId.MERGE then
    match env.prevRandao with
    | none => throw .panic
    | some w => pure (some w)
  else pure (some env.difficulty)

/-- `__revmc_builtin_blob_hash` (lib.rs:461-466). -/
def blobHash (env : Env) (args : List Word) : M (Option Word) :=
  pure (some (env.blobs[Builtins.satUsize (atSp args 0)]?.getD 0))

/-- `__revmc_builtin_sload` (lib.rs:483-504). -/
def sload (env : Env) (index : Word) : M (Option Word) := do
  if enabled env SpecId.BERLIN then
    let additional := (GasParams.of env.spec).coldStorageAdditional
    let s ← get
    let skipCold := decide (s.gas < additional)
    let (v, cold) ← hostSload env env.self index skipCold
    if cold then charge additional else pure ()
    pure (some v)
  else
    let (v, _) ← hostSload env env.self index false
    pure (some v)

/-- `__revmc_builtin_sload_c` (lib.rs:506-515), chosen by `peephole_load` (peephole.rs:279-306) for a constant key that
fits 64 bits. -/
def sloadC (env : Env) (key : BitVec 64) : M (Option Word) := sload env (key.zeroExtend 256)

/-- Which builtin SLOAD calls: `const_operands` knows the key or not (peephole.rs:279-290, translate/mod.rs:964-967). -/
def sloadOp (env : Env) (known : Option Word) (args : List Word) : M (Option Word) :=
  match known with
  | some k => if k.toNat < 2 ^ 64 then sloadC env (k.truncate 64) else sload env (atSp args 0)
  | none => sload env (atSp args 0)

/-- The end of `__revmc_builtin_sstore` (lib.rs:543-557): what the write costs and gives back. -/
def sstoreSettle (env : Env) (r : SStore) (cold : Bool) : M (Option Word) := do
  let isIstanbul := enabled env SpecId.ISTANBUL
  let gp := GasParams.of env.spec
  charge (gp.sstoreDynamic isIstanbul r cold)
  if env.eip8037 then
    chargeState (env.sstoreState r)
    let refill := env.sstoreRefill r
    if refill > 0 then modify fun s => { s with reservoir := s.reservoir + refill }
  modify fun s => { s with refund := s.refund + gp.sstoreRefund isIstanbul r }
  pure none

/-- The write in `__revmc_builtin_sstore` (lib.rs:535-541). -/
def sstoreWrite (env : Env) (index value : Word) : M (SStore × Bool) :=
  if enabled env SpecId.BERLIN then do
    let s ← get
    let skipCold := decide (s.gas < (GasParams.of env.spec).coldStorageAdditional)
    hostSstore env env.self index value skipCold
  else hostSstore env env.self index value false

/-- `__revmc_builtin_sstore` (lib.rs:517-558). -/
def sstore (env : Env) (args : List Word) : M (Option Word) := do
  let index := atSp args 1
  let value := atSp args 0
  ensureNonStatic env
  let s ← get
  if enabled env SpecId.ISTANBUL ∧ s.gas ≤ (GasParams.of env.spec).callStipend then throw (.err .ReentrancySentryOOG)
  charge (GasParams.of env.spec).sstoreStatic
  let (r, cold) ← sstoreWrite env index value
  sstoreSettle env r cold

/-- `__revmc_builtin_tload` (lib.rs:560-563). -/
def tload (env : Env) (args : List Word) : M (Option Word) := do
  let s ← get
  pure (some (s.world.transient env.self (atSp args 0)))

/-- `__revmc_builtin_tstore` (lib.rs:565-574). -/
def tstore (env : Env) (args : List Word) : M (Option Word) := do
  let key := atSp args 1
  let value := atSp args 0
  ensureNonStatic env
  modify fun s => { s with world := s.world.writeTransient env.self key value }
  pure none

/-- `__revmc_builtin_selfdestruct` (lib.rs:864-896). -/
def selfdestruct (env : Env) (args : List Word) : M (Option Word) := do
  ensureNonStatic env
  let gp := GasParams.of env.spec
  let s ← get
  let skipColdLoad := decide (s.gas < gp.selfdestructCold)
  let res ← hostSelfdestruct env env.self (toAddress (atSp args 0)) skipColdLoad
  let topup := if enabled env SpecId.SPURIOUS_DRAGON then res.hadValue && !res.targetExists else !res.targetExists
  charge (gp.selfdestruct topup res.cold)
  if env.eip8037 && topup then chargeState env.newAccountState
  if !res.previously then modify fun s => { s with refund := s.refund + gp.selfdestructRefund }
  throw (.err .SelfDestruct)

/-- The opcode's base gas, charged by the section head (info.rs:165-222, translate/mod.rs:576-604). -/
def baseGas (spec : SpecId) (o : UInt8) : Nat := (makeMap (staticGas spec) spec o).baseGas.toNat

/-- One instruction: base gas, then its builtin (translate/mod.rs:700-1172). `known` is the constant operand, if the
analysis found one. -/
def exec (env : Env) (known : Option Word) (o : UInt8) (args : List Word) : M (Option Word) := do
  charge (baseGas env.spec o)
  if o = op.BALANCE then balance env args
  else if o = op.EXTCODESIZE then extcodesize env args
  else if o = op.EXTCODEHASH then extcodehash env args
  else if o = op.SELFBALANCE then selfBalance env
  else if o = op.DIFFICULTY then difficulty env
  else if o = op.BLOBHASH then blobHash env args
  else if o = op.SLOAD then sloadOp env known args
  else if o = op.SSTORE then sstore env args
  else if o = op.TLOAD then tload env args
  else if o = op.TSTORE then tstore env args
  else if o = op.SELFDESTRUCT then selfdestruct env args
  else throw .panic

end Verif.Access
