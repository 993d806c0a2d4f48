import Verif.Model.StateRoot
/-!
# Specification: the same state
-/

namespace Verif.StateRoot.Spec

/-- The value of a slot; one that is not there is zero. -/
def slot (storage : List (Nat × Nat)) (k : Nat) : Nat := ((storage.find? (fun e => e.1 = k)).map (·.2)).getD 0

/-- The account at an address. -/
def account (accounts : List Acct) (a : Nat) : Option Acct := accounts.find? (fun x => x.address = a)

/-- Nonce, balance, code and the value of every slot are the same. -/
def SameAcct (x y : Acct) : Prop :=
  x.nonce = y.nonce ∧ x.balance = y.balance ∧ x.codeHash = y.codeHash ∧ ∀ k, slot x.storage k = slot y.storage k

/-- The same accounts exist and are the same. -/
def SameState (l l' : List Acct) : Prop :=
  ∀ a, match account l a, account l' a with
    | none, none => True
    | some x, some y => SameAcct x y
    | _, _ => False

/-- The lists are maps: no address occurs twice and in no account a slot. -/
def IsMap (l : List Acct) : Prop := (l.map (·.address)).Nodup ∧ ∀ x ∈ l, (x.storage.map (·.1)).Nodup

end Verif.StateRoot.Spec
