import Verif.Model.Blockchain
/-!
# What a blockchain test demands
-/

namespace Verif.Chain.Spec

open Verif.Chain

variable {T : Type}

/-- The value of a slot; slots not mentioned are zero. -/
def value (m : AMap Nat Nat) (k : Nat) : Nat := (m.get k).getD 0

/-- The account is as expected: balance, nonce, every storage slot, and the code unless the fixture gives none. -/
structure Agrees (e : Expected) (a : Option Acct) : Prop where
  balance : (a.elim 0 (·.balance)) = e.balance
  nonce : (a.elim 0 (·.nonce)) = e.nonce
  code : e.code ≠ [] → a.bind (·.code) = some e.code
  storage : ∀ k, a.elim 0 (fun a => value a.storage k) = value e.storage k

/-- Every listed account is as expected. -/
def PostOk (a : Accts) (p : List (Nat × Expected)) : Prop := ∀ x ∈ p, Agrees x.2 (a.get x.1)

/-- The system calls one after the other. -/
inductive Calls (evm : Evm T) (env : BEnv) (hs : AMap Nat Nat) : List (Nat × Option Nat) → Accts → Accts → Prop
  | nil (a) : Calls evm env hs [] a a
  | cons {c cs a a' a''} : evm.sys env hs a c.1 c.2 = some a' → Calls evm env hs cs a' a'' → Calls evm env hs (c :: cs) a a''

/-- The transactions one after the other, each succeeding, with the gas of each. -/
inductive Txs (evm : Evm T) (env : BEnv) (hs : AMap Nat Nat) : List (TTx T) → Accts → List Gas → Accts → Prop
  | nil (a) : Txs evm env hs [] a [] a
  | cons {t ts x a g a' gs a''} : t.sender = true → t.env = some x → evm.tx env hs a x = some (g, a') →
      Txs evm env hs ts a' gs a'' → Txs evm env hs (t :: ts) a (g :: gs) a''

/-- The calls due before a block: its parent's hash from Prague on (EIP-2935), the beacon root from Cancun on
(EIP-4788), none for the genesis block. -/
def callsBefore (spec : SpecId) (number : Nat) (parent beacon : Option Nat) : List (Nat × Option Nat) :=
  if number = 0 then []
  else (if SpecId.PRAGUE ≤ spec then parent.toList.map fun h => (historyAddr, some h) else []) ++
    (if SpecId.CANCUN ≤ spec then beacon.toList.map fun h => (beaconAddr, some h) else [])

/-- The calls due after a block from Prague on: EIP-7002 and EIP-7251. -/
def callsAfter (spec : SpecId) : List (Nat × Option Nat) :=
  if SpecId.PRAGUE ≤ spec then [(withdrawalAddr, none), (consolidationAddr, none)] else []

/-- Wei per ether and per gwei. -/
def ether : Nat := 1000000000000000000
def gwei : Nat := 1000000000

/-- The miner's reward in ether: five, three from Byzantium, two from Constantinople, none after the merge. -/
def rewardEther (spec : SpecId) : Nat :=
  if spec < 4 then 5 else if spec < 5 then 3 else if spec < 9 then 2 else 0

/-- What a block pays out, in wei: the reward if there is one, and from Shanghai on the withdrawals, given in gwei. -/
def payments (spec : SpecId) (beneficiary : Nat) (ws : List (Nat × Nat)) : List (Nat × Nat) :=
  (if rewardEther spec = 0 then [] else [(beneficiary, rewardEther spec * ether)]) ++
    (if SpecId.SHANGHAI ≤ spec then ws.map fun w => (w.1, min (w.2 * gwei) maxWord) else [])

/-- The gas of a block: the sum over its transactions, from Amsterdam on the larger of the two separate sums. -/
def gasOf (spec : SpecId) (gs : List Gas) : Nat :=
  if SpecId.AMSTERDAM ≤ spec then max (gs.map (·.regular)).sum (gs.map (·.state)).sum else (gs.map (·.tx)).sum

/-- A valid block with header `h` on the chain: the calls before it, its transactions, the gas as in the header, the
payments and the calls after it. -/
def BlockOk (evm : Evm T) (spec : SpecId) (s : St) (b : TBlock T) (h : BHeader) (a' : Accts) : Prop :=
  ∃ a₁ a₂ gs,
    Calls evm ⟨h.number, h.beneficiary, s.excess⟩ s.hashes (callsBefore spec h.number s.parent h.beacon) s.accts a₁ ∧
    Txs evm ⟨h.number, h.beneficiary, s.excess⟩ s.hashes b.txs a₁ gs a₂ ∧ gasOf spec gs = h.gasUsed ∧
    Calls evm ⟨h.number, h.beneficiary, s.excess⟩ s.hashes (callsAfter spec)
      ((payments spec h.beneficiary b.withdrawals).foldl (fun a w => balanceIncr a w.1 w.2) a₂) a'

/-- A chain of valid blocks with headers, from `s` to `s'`. -/
inductive ChainOk (evm : Evm T) (spec : SpecId) : St → List (TBlock T) → St → Prop
  | nil (s) : ChainOk evm spec s [] s
  | cons {s b h a' bs s'} : b.header = some h → BlockOk evm spec s b h a' →
      ChainOk evm spec ⟨a', s.hashes.insert h.number h.hash, some h.hash, h.excess.getD 0,
        ⟨h.number, h.beneficiary, s.excess⟩⟩ bs s' →
      ChainOk evm spec s (b :: bs) s'

/-- The genesis block: the given accounts, its hash recorded and the parent of the first block. -/
def genesis (c : TCase T) : St := ⟨c.pre, [(0, c.genesisHash)], some c.genesisHash, c.genesisExcess, c.genesisEnv⟩

/-- The test case is fulfilled by a chain of valid blocks. -/
def CaseOk (evm : Evm T) (c : TCase T) : Prop :=
  ∃ s, ChainOk evm c.network.spec (genesis c) c.blocks s ∧ ∀ p, c.post = some p → PostOk s.accts p

/-- The transactions are executable and no execution is refused. -/
structure NeverRefuses (evm : Evm T) (bs : List (TBlock T)) : Prop where
  txs : ∀ b ∈ bs, ∀ t ∈ b.txs, t.sender = true ∧ t.env.isSome = true
  evm : ∀ env hs a x, (evm.tx env hs a x).isSome = true

/-- Every block has a header and is expected to be valid. -/
def Plain (bs : List (TBlock T)) : Prop := ∀ b ∈ bs, b.header.isSome = true ∧ b.shouldFail = false

/-- No map lists a key twice. -/
def Tidy (a : Accts) (p : List (Nat × Expected)) : Prop :=
  (∀ k x, a.get k = some x → (x.storage.keys).Nodup) ∧ ∀ e ∈ p, (e.2.storage.keys).Nodup

end Verif.Chain.Spec
