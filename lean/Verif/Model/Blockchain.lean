import Verif.Model.Opcode
import Verif.Model.AMap
/-!
# Model: the blockchain-test runner

`crates/revmc-statetest/src/btest/`. What the EVM does with a transaction or a system call is an arbitrary function.
Addresses, hashes and slots are numbers. Left out: printing, block access lists, the list of skipped files (a
parameter), overflow of the gas sums.
-/

namespace Verif.Chain

/-- An account of the database (`AccountInfo` and its cached storage, as read at btest/mod.rs:273-360). -/
structure Acct where
  balance : Nat := 0
  nonce : Nat := 0
  code : Option (List UInt8) := none
  storage : AMap Nat Nat := []

/-- The accounts of the database (`State`, btest/mod.rs:578). -/
abbrev Accts := AMap Nat Acct

/-- The `BlockEnv` of a block (btest/mod.rs:614, 633-636) as far as the runner reads it, with the excess blob gas it was
made from. -/
structure BEnv where
  number : Nat
  beneficiary : Nat
  excess : Nat

/-- The gas of one transaction (btest/mod.rs:805-808). -/
structure Gas where
  tx : Nat := 0
  regular : Nat := 0
  state : Nat := 0

/-- The EVM: `evm.transact` (btest/mod.rs:751-755), `none` for an error, and `system_call_commit`
(pre_block.rs:45-72, post_block.rs:83-108) by address and data, none meaning empty. Both may read the block hashes. -/
structure Evm (T : Type) where
  tx : BEnv → AMap Nat Nat → Accts → T → Option (Gas × Accts)
  sys : BEnv → AMap Nat Nat → Accts → Nat → Option Nat → Option Accts

/-- A transaction of the fixture (btest/mod.rs:674, 706-745): whether it names its sender, and `to_tx_env`. -/
structure TTx (T : Type) where
  sender : Bool
  env : Option T

/-- The header of a block of the fixture (btest/mod.rs:629-637, 871). -/
structure BHeader where
  hash : Nat
  beacon : Option Nat
  number : Nat
  beneficiary : Nat
  gasUsed : Nat
  excess : Option Nat

/-- A block of the fixture (btest/mod.rs:617-629, 899). A withdrawal is an address and an amount. -/
structure TBlock (T : Type) where
  shouldFail : Bool
  txs : List (TTx T)
  header : Option BHeader
  withdrawals : List (Nat × Nat)

/-- What `execute_blockchain_test` carries from block to block (btest/mod.rs:603, 611-614, 908, 923-926). -/
structure St where
  accts : Accts
  hashes : AMap Nat Nat
  parent : Option Nat
  excess : Nat
  env : BEnv

/-- `TestExecutionError` (btest/mod.rs:1031-1073), the variants that are produced. -/
inductive Err
  | preBlock | postBlock | gasUsed | balance | nonce | code | unexpectedSlot | slot
deriving DecidableEq, Repr

/-- `ONE_ETHER` and `ONE_GWEI` (used at post_block.rs:43, 72-78). -/
def oneEther : Nat := 10 ^ 18
def oneGwei : Nat := 10 ^ 9

/-- The addresses of the system contracts (pre_block.rs:45, 60; post_block.rs:83-84, 96-97). -/
def historyAddr : Nat := 0x0000F90827F1C53a10cb7A02335B175320002935
def beaconAddr : Nat := 0x000F3df6D732807Ef1319fB7B8bB8522d0Beac02
def withdrawalAddr : Nat := 0x00000961Ef480Eb55e80D19ad83579A64c007002
def consolidationAddr : Nat := 0x0000BBdDc7CE488642fb579F8B00f3a590007251

/-- `block_reward` (post_block.rs:65-81). -/
def blockReward (spec : SpecId) (ommers : Nat) : Nat :=
  if SpecId.MERGE ≤ spec then 0
  else
    let reward := if SpecId.PETERSBURG ≤ spec then oneEther * 2
      else if SpecId.BYZANTIUM ≤ spec then oneEther * 3
      else oneEther * 5
    reward + (reward >>> 5) * ommers

/-- `U256::MAX`, where sums and products saturate (post_block.rs:43). -/
def maxWord : Nat := 2 ^ 256 - 1

/-- `balance_incr` of revm's journal (used at post_block.rs:30-34, 40-46): the account is loaded or made, its balance
grows up to the largest word. -/
def balanceIncr (a : Accts) (addr amount : Nat) : Accts :=
  let acc := (a.get addr).getD {}
  a.insert addr { acc with balance := min (acc.balance + amount) maxWord }

/-- `pre_block_transition` (pre_block.rs:14-43); `none` is an error of a call. -/
def preBlock {T : Type} (evm : Evm T) (spec : SpecId) (env : BEnv) (hs : AMap Nat Nat) (parent beacon : Option Nat)
    (a : Accts) : Option Accts :=
  if env.number = 0 then some a
  else
    let r := match parent with
      | some h => if SpecId.PRAGUE ≤ spec then evm.sys env hs a historyAddr (some h) else some a
      | none => some a
    r.bind fun a => match beacon with
      | some h => if SpecId.CANCUN ≤ spec then evm.sys env hs a beaconAddr (some h) else some a
      | none => some a

/-- `post_block_transition` (post_block.rs:17-63). -/
def postBlock {T : Type} (evm : Evm T) (spec : SpecId) (env : BEnv) (hs : AMap Nat Nat) (ws : List (Nat × Nat))
    (a : Accts) : Option Accts :=
  let reward := blockReward spec 0
  let a := if reward ≠ 0 then balanceIncr a env.beneficiary reward else a
  let a := if SpecId.SHANGHAI ≤ spec then
      ws.foldl (fun a w => balanceIncr a w.1 (min (w.2 * oneGwei) maxWord)) a
    else a
  (if SpecId.PRAGUE ≤ spec then evm.sys env hs a withdrawalAddr none else some a).bind fun a =>
    if SpecId.PRAGUE ≤ spec then evm.sys env hs a consolidationAddr none else some a

/-- The transactions of a block (btest/mod.rs:665-864): whether the block was completed, the accounts and the gas. A
missing sender, an unexpected success and an unexpected failure end the loop; nothing is reported. -/
def runTxs {T : Type} (evm : Evm T) (env : BEnv) (hs : AMap Nat Nat) (shouldFail : Bool) :
    List (TTx T) → Accts → Gas → Bool × Accts × Gas
  | [], a, g => (true, a, g)
  | t :: ts, a, g =>
    if t.sender = false then (false, a, g)
    else match t.env with
      | none => if shouldFail then runTxs evm env hs shouldFail ts a g else (false, a, g)
      | some x =>
        match evm.tx env hs a x with
        | some (u, a') =>
          if shouldFail then (false, a, g)
          else runTxs evm env hs shouldFail ts a' ⟨g.tx + u.tx, g.regular + u.regular, g.state + u.state⟩
        | none => if shouldFail then runTxs evm env hs shouldFail ts a g else (false, a, g)

/-- The block's gas (btest/mod.rs:872-876). -/
def Gas.block (spec : SpecId) (g : Gas) : Nat := if SpecId.AMSTERDAM ≤ spec then max g.regular g.state else g.tx

/-- One block (btest/mod.rs:617-929). -/
def runBlock {T : Type} (evm : Evm T) (spec : SpecId) (s : St) (b : TBlock T) : Except Err St :=
  let env := match b.header with
    | some h => ⟨h.number, h.beneficiary, s.excess⟩
    | none => s.env
  match preBlock evm spec env s.hashes s.parent (b.header.bind (·.beacon)) s.accts with
  | none => .error .preBlock
  | some a =>
    let r := runTxs evm env s.hashes b.shouldFail b.txs a {}
    let wrong := match b.header with
      | some h => r.1 && !b.shouldFail && decide (r.2.2.block spec ≠ h.gasUsed)
      | none => false
    if wrong then .error .gasUsed
    else match postBlock evm spec env s.hashes b.withdrawals r.2.1 with
      | none => .error .postBlock
      | some a' => .ok {
          accts := a'
          hashes := s.hashes.insert env.number ((b.header.map (·.hash)).getD 0)
          parent := b.header.map (·.hash)
          excess := match b.header with
            | some h => h.excess.getD 0
            | none => s.excess
          env }

/-- All blocks (btest/mod.rs:617-929). -/
def runBlocks {T : Type} (evm : Evm T) (spec : SpecId) : St → List (TBlock T) → Except Err St
  | s, [] => .ok s
  | s, b :: bs =>
    match runBlock evm spec s b with
    | .error e => .error e
    | .ok s' => runBlocks evm spec s' bs

/-- An account of the expected post state (btest/mod.rs:271-362). -/
structure Expected where
  balance : Nat
  nonce : Nat
  code : List UInt8
  storage : AMap Nat Nat

/-- `state.storage` (btest/mod.rs:359-360) over the empty database: the cached value or zero. -/
def slotOf (a : Option Acct) (k : Nat) : Nat := ((a.getD {}).storage.get k).getD 0

/-- The body of the loop of `validate_post_state` (btest/mod.rs:271-375). -/
def validateAccount (e : Expected) (a : Option Acct) : Except Err Unit :=
  let info := a.getD {}
  if info.balance ≠ e.balance then .error .balance
  else if info.nonce ≠ e.nonce then .error .nonce
  else if e.code ≠ [] ∧ info.code ≠ some e.code then .error .code
  else if info.storage.any (fun p => (e.storage.get p.1).isNone && decide (p.2 ≠ 0)) then .error .unexpectedSlot
  else if e.storage.any (fun p => decide (slotOf a p.1 ≠ p.2)) then .error .slot
  else .ok ()

/-- `validate_post_state` (btest/mod.rs:248-377). -/
def validatePost (a : Accts) : List (Nat × Expected) → Except Err Unit
  | [] => .ok ()
  | (addr, e) :: r =>
    match validateAccount e (a.get addr) with
    | .error k => .error k
    | .ok () => validatePost a r

/-- `ForkSpec` (external; the names used at btest/mod.rs:563-572, 951-973). -/
inductive Fork
  | frontier | homestead | frontierToHomesteadAt5 | eip150 | homesteadToDaoAt5 | homesteadToEip150At5 | eip158
  | byzantium | eip158ToByzantiumAt5 | byzantiumToConstantinopleFixAt5 | constantinople | byzantiumToConstantinopleAt5
  | constantinopleFix | istanbul | berlin | london | berlinToLondonAt5 | paris | parisToShanghaiAtTime15k | shanghai
  | cancun | shanghaiToCancunAtTime15k | prague | cancunToPragueAtTime15k | osaka | pragueToOsakaAtTime15k
  | bpo1ToBpo2AtTime15k | bpo2ToAmsterdamAtTime15k | amsterdam | other
deriving DecidableEq, Repr

/-- The skipped transition forks (btest/mod.rs:562-575). -/
def Fork.skipped : Fork → Bool
  | .byzantiumToConstantinopleAt5 | .parisToShanghaiAtTime15k | .shanghaiToCancunAtTime15k | .cancunToPragueAtTime15k
  | .pragueToOsakaAtTime15k | .bpo1ToBpo2AtTime15k | .bpo2ToAmsterdamAtTime15k => true
  | _ => false

/-- `fork_to_spec_id` (btest/mod.rs:950-974). -/
def Fork.spec : Fork → SpecId
  | .frontier => SpecId.FRONTIER
  | .homestead | .frontierToHomesteadAt5 => SpecId.HOMESTEAD
  | .eip150 | .homesteadToDaoAt5 | .homesteadToEip150At5 => SpecId.TANGERINE
  | .eip158 => SpecId.SPURIOUS_DRAGON
  | .byzantium | .eip158ToByzantiumAt5 | .byzantiumToConstantinopleFixAt5 => SpecId.BYZANTIUM
  | .constantinople | .byzantiumToConstantinopleAt5 => SpecId.PETERSBURG
  | .constantinopleFix => SpecId.PETERSBURG
  | .istanbul => SpecId.ISTANBUL
  | .berlin => SpecId.BERLIN
  | .london | .berlinToLondonAt5 => SpecId.LONDON
  | .paris | .parisToShanghaiAtTime15k => SpecId.MERGE
  | .shanghai => SpecId.SHANGHAI
  | .cancun | .shanghaiToCancunAtTime15k => SpecId.CANCUN
  | .prague | .cancunToPragueAtTime15k => SpecId.PRAGUE
  | .osaka | .pragueToOsakaAtTime15k => SpecId.OSAKA
  | _ => SpecId.AMSTERDAM

/-- A `BlockchainTestCase`: fork, genesis accounts, hash, excess blob gas and environment, blocks, post state
(btest/mod.rs:564-617, 932). -/
structure TCase (T : Type) where
  network : Fork
  pre : Accts
  genesisHash : Nat
  genesisExcess : Nat
  genesisEnv : BEnv
  blocks : List (TBlock T)
  post : Option (List (Nat × Expected))

/-- What is set up before the first block (btest/mod.rs:577-614). -/
def TCase.start {T : Type} (c : TCase T) : St :=
  { accts := c.pre, hashes := [(0, c.genesisHash)], parent := some c.genesisHash, excess := c.genesisExcess,
    env := c.genesisEnv }

/-- `execute_blockchain_test` (btest/mod.rs:557-947). -/
def runCase {T : Type} (evm : Evm T) (c : TCase T) : Except Err Unit :=
  if c.network.skipped then .ok ()
  else match runBlocks evm c.network.spec c.start c.blocks with
    | .error e => .error e
    | .ok s => match c.post with
      | none => .ok ()
      | some p => validatePost s.accts p

/-- A file: skipped, unreadable, or its test cases (`skip_test` btest/mod.rs:977-1029, `run_test_file`
btest/mod.rs:146-206). -/
inductive TFile (T : Type)
  | skip
  | bad
  | cases (l : List (TCase T))

/-- `run_test_file` (btest/mod.rs:146-206): the number of tests, `none` for an error. -/
def runFile {T : Type} (evm : Evm T) : List (TCase T) → Nat → Option Nat
  | [], n => some n
  | c :: cs, n =>
    match runCase evm c with
    | .error _ => none
    | .ok () => runFile evm cs (n + 1)

/-- The counters of `run_tests` (btest/mod.rs:43-45). -/
structure Tally where
  passed : Nat := 0
  failed : Nat := 0
  skipped : Nat := 0
deriving DecidableEq, Repr

/-- What a file comes to (btest/mod.rs:52-109): skipped, the number of its tests, or an error. -/
inductive FileEnd
  | skipped
  | passed (n : Nat)
  | failed

/-- The body of the loop of `run_tests` (btest/mod.rs:51-70). -/
def TFile.run {T : Type} (evm : Evm T) : TFile T → FileEnd
  | .skip => .skipped
  | .bad => .failed
  | .cases l => match runFile evm l 0 with
    | some k => .passed k
    | none => .failed

/-- `run_tests` (btest/mod.rs:36-143): the counters if the end is reached, and whether the run is a success. -/
def runFiles {T : Type} (evm : Evm T) (keepGoing : Bool) : List (TFile T) → Tally → Option Tally × Bool
  | [], n => (some n, decide (n.failed = 0))
  | f :: fs, n =>
    match f.run evm with
    | .skipped => runFiles evm keepGoing fs { n with skipped := n.skipped + 1 }
    | .passed k => runFiles evm keepGoing fs { n with passed := n.passed + k }
    | .failed =>
      if keepGoing then runFiles evm keepGoing fs { n with failed := n.failed + 1 } else (none, false)

end Verif.Chain
