/-!
# Stack words and stack buffers at the interface

Models `EvmWord` and `EvmStack` of `crates/revmc-context/src/lib.rs:391-822`: the words through which
builtins and callers see the stack of compiled code, for both byte orders the code distinguishes, and
the accessors of the buffer.

A word is its 32 bytes in memory order. A `U256` is a number; in memory it is four 64-bit limbs, least
significant first, each in native byte order (ruint). `usize` has 64 bits.
-/

namespace Verif.EvmWord

/-- `target_endian`. -/
inductive Endian
  | little
  | big
deriving DecidableEq, Repr

/-- The bytes of a word in memory order (lib.rs:622-625). -/
abbrev Bytes := List UInt8

/-- `n` bytes of a number, least significant first (`to_le_bytes`). -/
def toLe : Nat → Nat → Bytes
  | 0, _ => []
  | n + 1, v => UInt8.ofNat v :: toLe n (v / 256)

/-- The number of bytes least significant first (`from_le_bytes`). -/
def ofLe : Bytes → Nat
  | [] => 0
  | b :: bs => b.toNat + 256 * ofLe bs

/-- The four limbs of a `U256` (ruint). -/
def limbs (u : Nat) : List Nat :=
  [u % 2 ^ 64, u / 2 ^ 64 % 2 ^ 64, u / 2 ^ 128 % 2 ^ 64, u / 2 ^ 192 % 2 ^ 64]

/-- A limb in memory. -/
def limbBytes : Endian → Nat → Bytes
  | .little, l => toLe 8 l
  | .big, l => (toLe 8 l).reverse

/-- `transmute::<U256, EvmWord>`: the bytes of a `U256` in memory (lib.rs:718). -/
def castFromU256 (e : Endian) (u : Nat) : Bytes := (limbs u).flatMap (limbBytes e)

/-- A limb read from memory. -/
def limbOf : Endian → Bytes → Nat
  | .little, b => ofLe b
  | .big, b => ofLe b.reverse

/-- `transmute::<EvmWord, U256>` and the pointer casts `as_u256` (lib.rs:788-797, 812). -/
def castToU256 (e : Endian) (w : Bytes) : Nat :=
  limbOf e (w.take 8) + 2 ^ 64 * limbOf e ((w.drop 8).take 8) +
    2 ^ 128 * limbOf e ((w.drop 16).take 8) + 2 ^ 192 * limbOf e ((w.drop 24).take 8)

/-- `EvmWord::swap_bytes` (lib.rs:780-783). -/
def swapBytes (w : Bytes) : Bytes := w.reverse

/-- `EvmWord::ZERO` (lib.rs:682). -/
def zero : Bytes := List.replicate 32 0

/-- `EvmWord::from_ne_bytes` (lib.rs:710-712). -/
def fromNe (w : Bytes) : Bytes := w

/-- `EvmWord::to_ne_bytes` (lib.rs:756-758). -/
def toNe (w : Bytes) : Bytes := w

/-- `EvmWord::from_be` (lib.rs:725-730). -/
def fromBe : Endian → Bytes → Bytes
  | .little, w => swapBytes w
  | .big, w => w

/-- `EvmWord::from_le` (lib.rs:734-739). -/
def fromLe : Endian → Bytes → Bytes
  | .little, w => w
  | .big, w => swapBytes w

/-- `EvmWord::to_be` (lib.rs:762-767). -/
def toBeWord : Endian → Bytes → Bytes
  | .little, w => swapBytes w
  | .big, w => w

/-- `EvmWord::to_le` (lib.rs:771-776). -/
def toLeWord : Endian → Bytes → Bytes
  | .little, w => w
  | .big, w => swapBytes w

/-- `EvmWord::from_be_bytes` (lib.rs:686-688). -/
def fromBeBytes (e : Endian) (b : Bytes) : Bytes := fromBe e b

/-- `EvmWord::from_le_bytes` (lib.rs:698-700). -/
def fromLeBytes (e : Endian) (b : Bytes) : Bytes := fromLe e b

/-- `EvmWord::to_be_bytes` (lib.rs:743-745). -/
def toBeBytes (e : Endian) (w : Bytes) : Bytes := toNe (toBeWord e w)

/-- `EvmWord::to_le_bytes` (lib.rs:750-752). -/
def toLeBytes (e : Endian) (w : Bytes) : Bytes := toNe (toLeWord e w)

/-- `EvmWord::from_u256` (lib.rs:716-721). -/
def fromU256 : Endian → Nat → Bytes
  | .little, u => castFromU256 .little u
  | .big, u => (toLe 32 u).reverse

/-- `EvmWord::to_u256` (lib.rs:801-806) and `into_u256` (lib.rs:810-815). -/
def toU256 : Endian → Bytes → Nat
  | .little, w => castToU256 .little w
  | .big, w => ofLe w.reverse

/-- `EvmWord::from_be_slice` (lib.rs:692-694); `none` is the panic of `U256::from_be_slice` on more
than 32 bytes. -/
def fromBeSlice (e : Endian) (b : Bytes) : Option Bytes :=
  if b.length ≤ 32 then some (fromU256 e (ofLe b.reverse)) else none

/-- `EvmWord::from_le_slice` (lib.rs:704-706). -/
def fromLeSlice (e : Endian) (b : Bytes) : Option Bytes :=
  if b.length ≤ 32 then some (fromU256 e (ofLe b)) else none

/-- `EvmWord::to_address` (lib.rs:819-821): `Address::from_word` keeps the last 20 bytes. -/
def toAddress (e : Endian) (w : Bytes) : Bytes := (toBeBytes e w).drop 12

/-- `usize::try_from` (lib.rs:646-671). -/
def toUsize (e : Endian) (w : Bytes) : Option Nat :=
  if toU256 e w < 2 ^ 64 then some (toU256 e w) else none

/-! ## The buffer -/

/-- `EvmStack` (lib.rs:391-394): 1024 slots, `none` while uninitialised. -/
abbrev Buf := List (Option Bytes)

/-- `EvmStack::CAPACITY` (lib.rs:402). -/
def capacity : Nat := 1024

/-- Outcome of an access: the documented panic, or reading a slot that was never written, which the
caller must exclude. -/
inductive Access (α : Type)
  | ok (a : α)
  | panic
  | undefined
deriving DecidableEq, Repr

/-- `EvmStack::new` (lib.rs:408-410). -/
def Buf.new : Buf := List.replicate capacity none

/-- `EvmStack::set` (lib.rs:516-518). -/
def Buf.set (s : Buf) (i : Nat) (w : Bytes) : Access Buf :=
  if i < s.length then .ok (List.set s i (some w)) else .panic

/-- `EvmStack::get` and `get_mut` (lib.rs:526-538); out of bounds is `none`. -/
def Buf.get (s : Buf) (i : Nat) : Access (Option Bytes) :=
  match s[i]? with
  | none => .ok none
  | some none => .undefined
  | some (some w) => .ok (some w)

/-- `get_unchecked` and `get_unchecked_mut` (lib.rs:546-558). -/
def Buf.getUnchecked (s : Buf) (i : Nat) : Access Bytes :=
  match s[i]? with
  | some (some w) => .ok w
  | _ => .undefined

/-- `set_unchecked` (lib.rs:617-619). -/
def Buf.setUnchecked (s : Buf) (i : Nat) (w : Bytes) : Access Buf :=
  if i < s.length then .ok (List.set s i (some w)) else .undefined

/-- `push` (lib.rs:566-569): the buffer and the new length. -/
def Buf.push (s : Buf) (len : Nat) (w : Bytes) : Access (Buf × Nat) :=
  match s.setUnchecked len w with
  | .ok s => .ok (s, len + 1)
  | .panic => .panic
  | .undefined => .undefined

/-- `top_unchecked` (lib.rs:577-589); a length of zero would wrap around. -/
def Buf.top (s : Buf) (len : Nat) : Access Bytes :=
  if len = 0 then .undefined else s.getUnchecked (len - 1)

/-- `from_top_unchecked` (lib.rs:597-609). -/
def Buf.fromTop (s : Buf) (len n : Nat) : Access Bytes :=
  if len < n + 1 then .undefined else s.getUnchecked (len - n - 1)

/-- `as_slice` and `as_mut_slice` (lib.rs:494-508). -/
def Buf.slice (s : Buf) (len : Nat) : Access (List Bytes) :=
  if len ≤ capacity then
    if (s.take len).all Option.isSome then .ok ((s.take len).filterMap id) else .undefined
  else .panic

end Verif.EvmWord
