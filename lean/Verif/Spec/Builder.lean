import Verif.Model.Builder
/-!
# What constants and comparisons mean
-/

namespace Verif.Bld.Spec

open Verif.Bld

/-- A comparison of the numbers the words stand for, with or without sign. -/
def holds {w : Nat} (c : IntCC) (a b : BitVec w) : Prop :=
  match c with
  | .eq => a.toNat = b.toNat
  | .ne => a.toNat ≠ b.toNat
  | .slt => a.toInt < b.toInt
  | .sge => a.toInt ≥ b.toInt
  | .sgt => a.toInt > b.toInt
  | .sle => a.toInt ≤ b.toInt
  | .ult => a.toNat < b.toNat
  | .uge => a.toNat ≥ b.toNat
  | .ugt => a.toNat > b.toNat
  | .ule => a.toNat ≤ b.toNat

/-- The target listed for a number, the default if there is none. -/
def target {L : Type} (n : Nat) (dflt : L) (ts : List (BitVec 64 × L)) : L :=
  ((ts.find? fun t => decide (t.1.toNat = n)).map (·.2)).getD dflt

end Verif.Bld.Spec
