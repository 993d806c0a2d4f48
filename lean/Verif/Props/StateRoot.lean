import Verif.Lemmas.StateRoot
/-!
# C75: the roots that the test runners compare stand for the state
-/

namespace Verif.StateRoot
open Spec

section
variable {R Q : Type} (keccak : Nat → Nat) (storageTrie : List (Nat × Nat) → R) (trie : List (Nat × Leaf R) → Q)

/-- C75: the storage root depends on the values of the slots alone: not on the order in which the map is gone through, nor
on whether zeros are stored. -/
theorem C75_storage (hk : ∀ a b, keccak a = keccak b → a = b) (s s' : List (Nat × Nat))
    (h : (s.map (·.1)).Nodup) (h' : (s'.map (·.1)).Nodup) (he : ∀ k, slot s k = slot s' k) :
    storageRoot keccak storageTrie s = storageRoot keccak storageTrie s' := by
  unfold storageRoot
  rw [(storage_sorted keccak hk s s' h h').2 he]

/-- C75: different values give different storage roots, if the trie hides nothing. -/
theorem C75_storage_separates (hk : ∀ a b, keccak a = keccak b → a = b) (ht : ∀ a b, storageTrie a = storageTrie b → a = b)
    (s s' : List (Nat × Nat)) (h : (s.map (·.1)).Nodup) (h' : (s'.map (·.1)).Nodup)
    (he : storageRoot keccak storageTrie s = storageRoot keccak storageTrie s') (k : Nat) : slot s k = slot s' k :=
  (storage_sorted keccak hk s s' h h').1 (ht _ _ he) k

/-- C75: the same state has the same root, whatever the order of the accounts. -/
theorem C75_same (hk : ∀ a b, keccak a = keccak b → a = b) (l l' : List Acct) (h : IsMap l) (h' : IsMap l')
    (hs : SameState l l') : stateRoot keccak storageTrie trie l = stateRoot keccak storageTrie trie l' := by
  unfold stateRoot
  congr 1
  have half : ∀ l l' : List Acct, IsMap l → IsMap l' → SameState l l' → ∀ e,
      e ∈ l.map (fun a => (keccak a.address,
        (⟨a.nonce, a.balance, storageRoot keccak storageTrie a.storage, a.codeHash⟩ : Leaf R))) →
      e ∈ l'.map (fun a => (keccak a.address,
        (⟨a.nonce, a.balance, storageRoot keccak storageTrie a.storage, a.codeHash⟩ : Leaf R))) := by
    intro l l' h h' hs e he
    obtain ⟨x, hx, rfl⟩ := List.mem_map.1 he
    have hs := hs x.address
    rw [(mem_account l h.1 x x.address).2 ⟨hx, rfl⟩] at hs
    cases hy : account l' x.address with
    | none => rw [hy] at hs; exact hs.elim
    | some y =>
      rw [hy] at hs
      obtain ⟨hm, ha⟩ := (mem_account l' h'.1 y _).1 hy
      obtain ⟨h1, h2, h3, h4⟩ := hs
      refine List.mem_map.2 ⟨y, hm, ?_⟩
      rw [ha, ← h1, ← h2, ← h3, C75_storage keccak storageTrie hk y.storage x.storage (h'.2 y hm) (h.2 x hx) fun k => (h4 k).symm]
  have hsym : SameState l' l := by
    intro a
    have := hs a
    revert this
    cases account l a <;> cases account l' a
    · exact id
    · exact id
    · exact id
    · rintro ⟨h1, h2, h3, h4⟩
      exact ⟨h1.symm, h2.symm, h3.symm, fun k => (h4 k).symm⟩
  refine (sortKey_eq _ _ ?_ ?_).2 fun e => ⟨half l l' h h' hs e, half l' l h' h hsym e⟩
  · rw [List.map_map]; exact nodup_map (·.address) keccak hk l h.1
  · rw [List.map_map]; exact nodup_map (·.address) keccak hk l' h'.1

/-- C75: equal roots mean that every account exists in both states or in neither and has the same nonce, balance, code and
slots, if hash and tries hide nothing. -/
theorem C75_separates (hk : ∀ a b, keccak a = keccak b → a = b) (hst : ∀ a b, storageTrie a = storageTrie b → a = b)
    (ht : ∀ a b, trie a = trie b → a = b) (l l' : List Acct) (h : IsMap l) (h' : IsMap l')
    (he : stateRoot keccak storageTrie trie l = stateRoot keccak storageTrie trie l') : SameState l l' := by
  have hm := (sortKey_eq _ _ (by rw [List.map_map]; exact nodup_map (·.address) keccak hk l h.1)
    (by rw [List.map_map]; exact nodup_map (·.address) keccak hk l' h'.1)).1 (ht _ _ he)
  have find : ∀ l l' : List Acct, IsMap l → IsMap l' → (∀ e,
      e ∈ l.map (fun a => (keccak a.address,
        (⟨a.nonce, a.balance, storageRoot keccak storageTrie a.storage, a.codeHash⟩ : Leaf R))) →
      e ∈ l'.map (fun a => (keccak a.address,
        (⟨a.nonce, a.balance, storageRoot keccak storageTrie a.storage, a.codeHash⟩ : Leaf R)))) →
      ∀ a x, account l a = some x → ∃ y, account l' a = some y ∧ SameAcct x y := by
    intro l l' h h' hm a x hacc
    obtain ⟨hx, rfl⟩ := (mem_account l h.1 x a).1 hacc
    obtain ⟨y, hy, e⟩ := List.mem_map.1 (hm _ (List.mem_map.2 ⟨x, hx, rfl⟩))
    simp only [Prod.mk.injEq, Leaf.mk.injEq] at e
    obtain ⟨e1, e2, e3, e4, e5⟩ := e
    exact ⟨y, (mem_account l' h'.1 y _).2 ⟨hy, hk _ _ e1⟩, e2.symm, e3.symm, e5.symm,
      C75_storage_separates keccak storageTrie hk hst _ _ (h.2 x hx) (h'.2 y hy) e4.symm⟩
  intro a
  cases hx : account l a with
  | some x =>
    obtain ⟨y, hy, hs⟩ := find l l' h h' (fun e => (hm e).1) a x hx
    rw [hy]
    exact hs
  | none =>
    cases hy : account l' a with
    | none => trivial
    | some y =>
      obtain ⟨x, hx', _⟩ := find l' l h' h (fun e => (hm e).2) a y hy
      rw [hx] at hx'; cases hx'

/-- C75: what a test compares is the logs, none for an execution that is an error, and the state. -/
theorem C75_roots {L P : Type} (logHash : List L → P) (hk : ∀ a b, keccak a = keccak b → a = b)
    (hst : ∀ a b, storageTrie a = storageTrie b → a = b) (ht : ∀ a b, trie a = trie b → a = b)
    (hl : ∀ a b, logHash a = logHash b → a = b) (logs logs' : Option (List L)) (l l' : List Acct) (h : IsMap l) (h' : IsMap l') :
    testRoots keccak storageTrie trie logHash logs l = testRoots keccak storageTrie trie logHash logs' l' ↔
      (∀ x, (∃ a, logs = some a ∧ a = x ∧ x ≠ []) ↔ ∃ a, logs' = some a ∧ a = x ∧ x ≠ []) ∧ SameState l l' := by
  unfold testRoots
  rw [Prod.mk.injEq]
  have h1 : logHash (logs.getD []) = logHash (logs'.getD []) ↔
      ∀ x, (∃ a, logs = some a ∧ a = x ∧ x ≠ []) ↔ ∃ a, logs' = some a ∧ a = x ∧ x ≠ [] := by
    have key : ∀ (o : Option (List L)) x, (∃ a, o = some a ∧ a = x ∧ x ≠ []) ↔ o.getD [] = x ∧ x ≠ [] := by
      intro o x
      cases o with
      | none =>
        simp only [reduceCtorEq, false_and, exists_false, Option.getD_none, false_iff]
        rintro ⟨rfl, hn⟩; exact hn rfl
      | some a => simp
    simp only [key]
    constructor
    · intro e x; rw [hl _ _ e]
    · intro e
      congr 1
      by_cases hn : logs.getD [] = []
      · by_cases hn' : logs'.getD [] = []
        · rw [hn, hn']
        · exact ((e _).2 ⟨rfl, hn'⟩).1
      · exact ((e _).1 ⟨rfl, hn⟩).1.symm
  rw [h1]
  exact and_congr_right fun _ => ⟨C75_separates keccak storageTrie trie hk hst ht l l' h h',
    C75_same keccak storageTrie trie hk l l' h h'⟩

end

/-- Two accounts, one with a stored zero, and the same in another order without it. -/
private def sample : List Acct := [⟨7, 1, 100, 5, [(1, 10), (2, 0), (3, 30)]⟩, ⟨3, 0, 50, 0, []⟩]

private def sample' : List Acct := [⟨3, 0, 50, 0, [(9, 0)]⟩, ⟨7, 1, 100, 5, [(3, 30), (1, 10)]⟩]

example : IsMap sample ∧ IsMap sample' := by unfold IsMap; decide

example : stateRoot (· + 1) id id sample = stateRoot (· + 1) id id sample' ∧
    stateRoot (· + 1) id id sample =
      [(4, ⟨0, 50, [], 0⟩), (8, ⟨1, 100, [(2, 10), (4, 30)], 5⟩)] := by decide

example : SameState sample sample' :=
  C75_separates (· + 1) id id (by intro a b h; simpa using h) (fun _ _ h => h) (fun _ _ h => h) _ _
    (by unfold IsMap; decide) (by unfold IsMap; decide) (by decide)

end Verif.StateRoot
