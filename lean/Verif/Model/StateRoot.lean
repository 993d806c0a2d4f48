/-!
# Model: the roots that the test runners compare

`crates/revmc-statetest/src/merkle_trie.rs`. Hashes are numbers; keccak, RLP and the trie built from sorted leaves are
arbitrary functions. Maps are lists of entries in the order of their iteration.
-/

namespace Verif.StateRoot

/-- `PlainAccount` (merkle_trie.rs:5, 33) under its address; `storage` maps slots to values. -/
structure Acct where
  address : Nat
  nonce : Nat
  balance : Nat
  codeHash : Nat
  storage : List (Nat × Nat)
deriving DecidableEq, Repr

/-- `TrieAccount` (merkle_trie.rs:46-51). -/
structure Leaf (R : Type) where
  nonce : Nat
  balance : Nat
  storageRoot : R
  codeHash : Nat
deriving DecidableEq, Repr

/-- One step of a sort by key. -/
def insertKey {V : Type} (e : Nat × V) : List (Nat × V) → List (Nat × V)
  | [] => [e]
  | x :: xs => if e.1 ≤ x.1 then e :: x :: xs else x :: insertKey e xs

/-- `sort_unstable_by_key(|(key, _)| *key)` (merkle_trie.rs:55). Simplified: the order of entries with equal keys, which
Rust leaves open, is fixed; with distinct keys there is none. -/
def sortKey {V : Type} (l : List (Nat × V)) : List (Nat × V) := l.foldr insertKey []

section
variable {R Q : Type} (keccak : Nat → Nat) (storageTrie : List (Nat × Nat) → R) (trie : List (Nat × Leaf R) → Q)

/-- `storage_root_unhashed` of the slots that are not zero (merkle_trie.rs:38-43): alloy-trie's hashes the slots, sorts
them and builds the trie. -/
def storageRoot (storage : List (Nat × Nat)) : R :=
  storageTrie (sortKey ((storage.filter (fun e => e.2 ≠ 0)).map fun e => (keccak e.1, e.2)))

/-- `state_merkle_trie_root` (merkle_trie.rs:32-65). -/
def stateRoot (accounts : List Acct) : Q :=
  trie (sortKey (accounts.map fun a =>
    (keccak a.address, ⟨a.nonce, a.balance, storageRoot keccak storageTrie a.storage, a.codeHash⟩)))

/-- `compute_test_roots` (merkle_trie.rs:13-24), the logs' root and the state's; `logs` is `none` if the execution is an
error. `logHash` is `log_rlp_hash` (merkle_trie.rs:26-30). -/
def testRoots {L P : Type} (logHash : List L → P) (logs : Option (List L)) (accounts : List Acct) : P × Q :=
  (logHash (logs.getD []), stateRoot keccak storageTrie trie accounts)

end

end Verif.StateRoot
