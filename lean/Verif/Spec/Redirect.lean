/-!
# Specification of redirects

A redirect table sends some instructions to others. `Ends m t e`: following the table from `t` stops
at `e`, which is not itself redirected.
-/

namespace Verif

/-- Following `m` from `t` stops at `e`. -/
inductive Ends (m : Nat → Option Nat) : Nat → Nat → Prop
  | stop {t : Nat} : m t = none → Ends m t t
  | hop {t n e : Nat} : m t = some n → Ends m n e → Ends m t e

/-- Every redirect leads to an earlier instruction. -/
def Earlier (m : Nat → Option Nat) : Prop := ∀ k v, m k = some v → v < k

theorem Ends.unredirected {m : Nat → Option Nat} {t e : Nat} (h : Ends m t e) : m e = none := by
  induction h with
  | stop h => exact h
  | hop _ _ ih => exact ih

theorem Ends.unique {m : Nat → Option Nat} {t e e' : Nat} (h : Ends m t e) (h' : Ends m t e') : e = e' := by
  induction h with
  | stop h =>
    cases h' with
    | stop _ => rfl
    | hop h1 _ => rw [h] at h1; simp at h1
  | hop h1 _ ih =>
    cases h' with
    | stop h => rw [h] at h1; simp at h1
    | hop h2 h3 => rw [h1] at h2; cases h2; exact ih h3

end Verif
