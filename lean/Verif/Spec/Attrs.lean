import Verif.Model.Attrs
/-!
# What a declared attribute promises

Following the LLVM language reference, stated on the list of accesses of one run.
Attributes that speak about addresses, threads or cost (`noalias`, `nocapture`, `noundef`, `align`,
`nosync`, `norecurse`, `nounwind`, `cold`, `writable`) promise nothing about that list.
-/

namespace Verif.Attrs.Spec

open Verif.Attrs

/-- Word `w` behind parameter `p` is not read before the run itself has written it. -/
def FreshBeforeRead (p w : Nat) (t : List Acc) : Prop :=
  ∀ t₁ t₂, t = t₁ ++ .ptr p w false :: t₂ → .ptr p w true ∈ t₁

/-- Promise of attribute `a` on parameter `p`. -/
def Honours (a : Attr) (p : Nat) (t : List Acc) (o : Out) : Prop :=
  match a with
  | .readNone => ∀ w x, .ptr p w x ∉ t
  | .readOnly => ∀ w, .ptr p w true ∉ t
  | .writeOnly => ∀ w, .ptr p w false ∉ t
  | .dereferenceable n => ∀ w x, .ptr p w x ∈ t → 32 * (w + 1) ≤ n
  | .initializes n => ∀ w, 32 * (w + 1) ≤ n →
      FreshBeforeRead p w t ∧ (o = .returned → .ptr p w true ∈ t)
  | _ => True

/-- Promise of attribute `a` on the function. -/
def HonoursFn (a : Attr) (t : List Acc) (o : Out) : Prop :=
  match a with
  | .noReturn => o ≠ .returned
  | .argMemOnly => ∀ x, .far x ∉ t
  | .noFree => .free ∉ t
  | _ => True

/-- The third argument passed by compiled code: at most four topics, two kinds of creation, four
kinds of call. -/
def ArgOk (b : Bi) (n : Nat) : Prop :=
  match b with
  | .log => n ≤ 4
  | .create => n < 2
  | .call => n < 4
  | _ => True

/-- Which parameter of the builtin is the stack pointer. -/
def StackParam (b : Bi) (p : Nat) : Prop := b.params[p]? = some .sp ∨ b.params[p]? = some .spDyn

end Verif.Attrs.Spec
