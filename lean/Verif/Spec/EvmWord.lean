import Verif.Model.EvmWord
/-!
# What stack words and buffers mean

Positional values of byte strings, the number a machine of either byte order loads, and an EVM stack
as a list with the top first.
-/

namespace Verif.EvmWord.Spec

open Verif.EvmWord

/-- The number written most significant byte first: what the Yellow Paper means by a byte string as a
number. -/
def bigEndian (b : List UInt8) : Nat := b.foldl (fun a x => a * 256 + x.toNat) 0

/-- The number written least significant byte first. -/
def littleEndian (b : List UInt8) : Nat := bigEndian b.reverse

/-- What compiled code sees: a 256-bit integer load of a stack slot on a machine of this byte order. -/
def value : Endian → List UInt8 → Nat
  | .little, w => littleEndian w
  | .big, w => bigEndian w

/-- The first `len` slots of the buffer are initialised and hold the stack `st`, top first. -/
def Holds (s : Buf) (len : Nat) (st : List (List UInt8)) : Prop :=
  s.length = 1024 ∧ st.length = len ∧ ∀ i, i < len → s[i]? = some (st.reverse[i]?)

end Verif.EvmWord.Spec
