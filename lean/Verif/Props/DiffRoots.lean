import Verif.Props.Diff
import Verif.Props.Runner
import Verif.Props.StateRoot
/-!
# C75 for the runners: what passes has the result, logs and state that it should have
-/

namespace Verif.StateRoot
open Spec

/-- C75: with the roots that are computed from logs and database after each of the two executions, the comparison of C72
reports nothing exactly if the executions ended alike, emitted the same logs and left the same state. -/
theorem C75_compare {B R H L : Type} [DecidableEq B] [DecidableEq H] (keccak : Nat → Nat)
    (storageTrie : List (Nat × Nat) → R) (trie : List (Nat × Leaf R) → H) (logHash : List L → H) (hk : ∀ a b, keccak a = keccak b → a = b)
    (hst : ∀ a b, storageTrie a = storageTrie b → a = b) (ht : ∀ a b, trie a = trie b → a = b)
    (hl : ∀ a b, logHash a = logHash b → a = b) (r r' : Diff.Res B) (logs logs' : List L)
    (l l' : List Acct) (h : IsMap l) (h' : IsMap l') :
    let roots := fun (r : Diff.Res B) (logs : List L) (l : List Acct) =>
      testRoots keccak storageTrie trie logHash (if r.isError then none else some logs) l
    Diff.compare (Diff.snapshot r (roots r logs l).2 (roots r logs l).1)
        (Diff.snapshot r' (roots r' logs' l').2 (roots r' logs' l').1) = [] ↔
      r = r' ∧ ((∀ e, r ≠ .error e) → logs = logs') ∧ SameState l l' := by
  intro roots
  rw [Diff.C72_compare]
  have hs : (roots r logs l).2 = (roots r' logs' l').2 ↔ SameState l l' :=
    ⟨C75_separates keccak storageTrie trie hk hst ht l l' h h', C75_same keccak storageTrie trie hk l l' h h'⟩
  rw [hs]
  constructor
  · rintro ⟨rfl, h1, h2⟩
    refine ⟨rfl, fun hne => ?_, h1⟩
    have he : r.isError = false := by
      cases r with
      | error e => exact absurd rfl (hne e)
      | _ => rfl
    have h2 : logHash ((if r.isError then none else some logs).getD []) =
        logHash ((if r.isError then none else some logs').getD []) := h2
    rw [he] at h2
    exact hl _ _ h2
  · rintro ⟨rfl, h1, h2⟩
    refine ⟨rfl, h2, ?_⟩
    show logHash ((if r.isError then none else some logs).getD []) =
        logHash ((if r.isError then none else some logs').getD [])
    cases r with
    | error e => rfl
    | success _ _ _ => rw [h1 (by intro e; simp)]
    | revert _ _ => rw [h1 (by intro e; simp)]
    | halt _ _ => rw [h1 (by intro e; simp)]

/-- C75: a state test whose fixture has the roots of some logs and some state passes exactly if the exception that it
expects happened (logs and state are then not looked at), or it expects none, there is a result, the logs and the state
are those, and so is the output if both sides have one. -/
theorem C75_checked {B R H L : Type} [DecidableEq B] [DecidableEq H] (keccak : Nat → Nat)
    (storageTrie : List (Nat × Nat) → R) (trie : List (Nat × Leaf R) → H) (logHash : List L → H)
    (hk : ∀ a b, keccak a = keccak b → a = b) (hst : ∀ a b, storageTrie a = storageTrie b → a = b)
    (ht : ∀ a b, trie a = trie b → a = b) (hl : ∀ a b, logHash a = logHash b → a = b) (expectException txOk : Bool)
    (out : Option B) (logs : Option (List L)) (logs' : List L) (output : Option B) (l l' : List Acct) (h : IsMap l)
    (h' : IsMap l') :
    let got := testRoots keccak storageTrie trie logHash logs l
    let want := testRoots keccak storageTrie trie logHash (some logs') l'
    Runner.checkExecution ⟨expectException, txOk, want.1, want.2⟩ out ⟨logs.isSome, output, got.1, got.2⟩ = .ok () ↔
      (expectException = true ∧ logs = none) ∨
      (expectException = false ∧ logs = some logs' ∧ SameState l l' ∧
        ∀ x y, out = some x → output = some y → x = y) := by
  intro got want
  rw [Runner.C68_test]
  unfold Runner.Spec.Passes
  have hs : got.2 = want.2 ↔ SameState l l' :=
    ⟨C75_separates keccak storageTrie trie hk hst ht l l' h h', C75_same keccak storageTrie trie hk l l' h h'⟩
  dsimp only
  rw [hs]
  have hlog : (logs.isSome = true ∧ got.1 = want.1) ↔ logs = some logs' := by
    cases logs with
    | none => simp
    | some a =>
      constructor
      · intro e; exact congrArg some (hl _ _ e.2)
      · intro e; cases e; exact ⟨rfl, rfl⟩
  rw [← hlog]
  simp only [Option.isSome_eq_false_iff, Option.isNone_iff_eq_none, and_assoc]

/-- Roots that hide nothing: the leaves of the trie or the logs themselves. -/
private inductive Root
  | state (leaves : List (Nat × Leaf (List (Nat × Nat))))
  | logs (l : List Nat)
deriving DecidableEq

private def before : List Acct := [⟨7, 1, 100, 5, [(1, 10), (2, 0)]⟩, ⟨3, 0, 50, 0, []⟩]

private def before' : List Acct := [⟨3, 0, 50, 0, [(2, 0)]⟩, ⟨7, 1, 100, 5, [(1, 10)]⟩]

private def after' : List Acct := [⟨3, 0, 50, 0, []⟩, ⟨7, 1, 100, 5, [(1, 11)]⟩]

example (r r' : Diff.Res Nat) (logs logs' : List Nat) :=
  C75_compare (H := Root) (· + 1) id .state .logs (by intro a b h; simpa using h) (fun _ _ h => h) (fun _ _ h => Root.state.inj h)
    (fun _ _ h => Root.logs.inj h) r r' logs logs' before before' (by unfold IsMap before; decide)
    (by unfold IsMap before'; decide)

example (logs : Option (List Nat)) (logs' : List Nat) :=
  C75_checked (B := Nat) (H := Root) (· + 1) id .state .logs (by intro a b h; simpa using h) (fun _ _ h => h)
    (fun _ _ h => Root.state.inj h) (fun _ _ h => Root.logs.inj h) false true (some 5) logs logs' (some 5) before before'
    (by unfold IsMap before; decide) (by unfold IsMap before'; decide)

example : Diff.compare (H := Root) (Diff.snapshot (.revert 1 21000) (stateRoot (· + 1) id .state before) (.logs [1]))
      (Diff.snapshot (.revert 1 21000) (stateRoot (· + 1) id .state before') (.logs [1])) = [] ∧
    Diff.compare (H := Root) (Diff.snapshot (.revert 1 21000) (stateRoot (· + 1) id .state before) (.logs [1]))
      (Diff.snapshot (.revert 1 21000) (stateRoot (· + 1) id .state after') (.logs [])) = [.stateRoot, .logsRoot] := by decide

end Verif.StateRoot
