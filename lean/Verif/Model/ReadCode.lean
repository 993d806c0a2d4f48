/-!
# Model: reading code and numbers on the command line

`crates/revmc-cli/src/lib.rs` and the hex helpers of `crates/revmc-cli/src/fixture.rs`. `none` is an error or a panic.
`hex::decode` is const-hex's, whose source is not at hand; it is taken to drop a prefix `0x`, not `0X`, and to read pairs
of digits.
The assembler is an arbitrary function (`AsmText` has it). White space is ASCII white space.
-/

namespace Verif.ReadCode

/-- The value of a hex digit (const-hex, `char::to_digit(16)`). -/
def digit (c : Char) : Option Nat :=
  if 48 ≤ c.toNat ∧ c.toNat ≤ 57 then some (c.toNat - 48)
  else if 97 ≤ c.toNat ∧ c.toNat ≤ 102 then some (c.toNat - 87)
  else if 65 ≤ c.toNat ∧ c.toNat ≤ 70 then some (c.toNat - 55)
  else none

/-- Pairs of digits; an odd one out is an error. -/
def pairs : List Char → Option (List UInt8)
  | [] => some []
  | [_] => none
  | c :: d :: cs =>
    match digit c, digit d, pairs cs with
    | some x, some y, some bs => some (UInt8.ofNat (16 * x + y) :: bs)
    | _, _, _ => none

/-- `hex::decode` (used at lib.rs:31, 38 and fixture.rs:438). -/
def decode : List Char → Option (List UInt8)
  | '0' :: 'x' :: cs => pairs cs
  | cs => pairs cs

/-- ASCII white space. -/
def isWs (c : Char) : Bool := c = ' ' || (9 ≤ c.toNat && c.toNat ≤ 13)

/-- `str::trim`. -/
def trim (s : List Char) : List Char := ((s.dropWhile isWs).reverse.dropWhile isWs).reverse

/-- `lines().map(trim).next()` (lib.rs:29-30): the text up to the line feed, trimmed. -/
def firstLine (s : List Char) : List Char := trim (s.takeWhile (· ≠ '\n'))

/-- The extensions that matter (lib.rs:24, 32, 34). -/
inductive Ext
  | bin | hex | evm | other
deriving DecidableEq, Repr

/-- `contents.starts_with(b"0x") || …(b"0X")` (lib.rs:23). -/
def hasPrefix : List UInt8 → Bool
  | 48 :: 120 :: _ => true
  | 48 :: 88 :: _ => true
  | _ => false

/-- `is_ascii`. -/
def isAscii (b : List UInt8) : Bool := b.all (· < 128)

/-- `read_code_string` (lib.rs:22-47), `utf8` being `from_utf8`. The last branch of the code cannot be reached. -/
def readCode (utf8 : List UInt8 → Option (List Char)) (asm : List Char → Option (List UInt8)) (contents : List UInt8)
    (ext : Option Ext) : Option (List UInt8) :=
  if ext ≠ some .bin ∧ (ext = some .hex ∨ hasPrefix contents = true) then
    (utf8 contents).bind fun s => decode (firstLine (trim s))
  else if ext = some .bin ∨ isAscii contents = false then some contents
  else if ext = some .evm then (utf8 contents).bind fun s => asm (trim s)
  else (utf8 contents).bind fun s => (asm (trim s)).or (decode (trim s))

/-- `strip_0x` (fixture.rs:451-453). -/
def strip0x : List Char → List Char
  | '0' :: 'x' :: cs => cs
  | '0' :: 'X' :: cs => cs
  | cs => cs

/-- The loop of `from_str_radix(_, 16)` with checked arithmetic on `bits` bits. -/
def radix (bits : Nat) : Nat → List Char → Option Nat
  | acc, [] => some acc
  | acc, c :: cs =>
    match digit c with
    | none => none
    | some d => if 16 * acc < 2 ^ bits ∧ 16 * acc + d < 2 ^ bits then radix bits (16 * acc + d) cs else none

/-- `parse_u256`, `parse_u128`, `parse_u64` (fixture.rs:416-429). Simplified: the sign that Rust's integers and the
underscores that `U256` allow are errors here. -/
def parseNum (bits : Nat) (s : List Char) : Option Nat :=
  let t := strip0x (trim s)
  if t.isEmpty then some 0 else radix bits 0 t

/-- `parse_hex_bytes` (fixture.rs:431-439). -/
def parseBytes (s : List Char) : Option (List UInt8) :=
  let t := strip0x (trim s)
  if t.isEmpty then some [] else decode (if t.length % 2 = 0 then t else '0' :: t)

/-- `parse_fixed_bytes` (fixture.rs:441-449). -/
def parseFixed (s : List Char) (n : Nat) : Option (List UInt8) :=
  (parseBytes s).map fun b => if b.length < n then List.replicate (n - b.length) 0 ++ b else b

/-- `parse_address` (fixture.rs:412-414), and `B256::from_slice(&parse_fixed_bytes(_, 32))` (fixture.rs:271):
`from_slice` panics on another length. -/
def parseArray (s : List Char) (n : Nat) : Option (List UInt8) :=
  (parseFixed s n).bind fun b => if b.length = n then some b else none

/-- `kind` of the transaction (fixture.rs:288-293): `some none` is a creation, `none` a panic. -/
def txKind : Option (List Char) → Option (Option (List UInt8))
  | some v => if !(trim v).isEmpty && trim v ≠ ['0', 'x'] then (parseArray v 20).map some else some none
  | none => some none

end Verif.ReadCode
