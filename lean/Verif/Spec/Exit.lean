import Verif.Model.U256
/-!
# What the caller should find on the stack
-/

namespace Verif.Spec

/-- The caller finds stack `S` (top first): the length, and word `d` below the top at its place in the
buffer. -/
def Shows (len : Int) (buf : Int → Word) (S : List Word) : Prop :=
  len = S.length ∧ ∀ (d : Nat) (w : Word), S[d]? = some w → buf (S.length - 1 - d) = w

end Verif.Spec
