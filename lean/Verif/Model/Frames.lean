import Verif.Model.Builtins
import Verif.Model.WholeMem
import Verif.Spec.Frames
/-!
# The builtins that touch memory and data, across frames

Models `crates/revmc-builtins/src/lib.rs` and `utils.rs` for the instructions that read or write memory, call data,
code or return data, with revm's `SharedMemory`: one buffer for all frames, of which a frame sees the part from its
checkpoint on. What revm does is not in /repo and is transcribed from its documentation and source as known: `Gas`,
`resize_memory`, `GasParams` (mainnet amounts), `SharedMemory`, and what happens between frames. Operands are passed
as in the code: `sp` points to the last popped word, so the words are there in reverse order. `usize` is 64 bits.
Left out: EIP-8037 state gas (C41 has it), the inspector's log callback, the context's copy of the memory's address (C56).
-/

namespace Verif.Frames

open Verif.Builtins (Err satUsize satAdd)
open Verif.Spec (LogEntry Act Rules)

/-- Why a builtin does not return: an error that ends the frame, or a panic or undefined behaviour. -/
inductive Stop
  | err (e : Err)
  | panic
deriving DecidableEq, Repr

/-- `saturating_mul` on `u64`. -/
def satMul (a b : Nat) : Nat := min (a * b) (2 ^ 64 - 1)

/-- `GasParams::memory_cost` (revm) of `w` words. -/
def memoryCost (w : Nat) : Nat := satAdd (satMul 3 w) (satMul w w / 512)

/-- `GasParams::copy_cost`, `mcopy_cost`, `extcodecopy` (revm). -/
def copyCost (len : Nat) : Nat := satMul 3 (numWords len)

/-- `GasParams::keccak256_cost` (revm). -/
def keccakCost (len : Nat) : Nat := satMul 6 (numWords len)

/-- `GasParams::log_cost` (revm). -/
def logCost (n len : Nat) : Nat := satAdd (satMul 8 len) (375 * n)

/-- `GasParams::initcode_cost` (revm). -/
def initcodeCost (len : Nat) : Nat := satMul 2 (numWords len)

/-- `GasParams::create2_cost` (revm). -/
def create2Cost (len : Nat) : Nat := satAdd 32000 (keccakCost len)

/-- revm's `SharedMemory`: the buffer of all frames and where the current frame's memory begins. -/
structure Shared where
  buf : List UInt8
  cp : Nat
deriving DecidableEq, Repr

/-- The call data of a frame (revm's `CallInput`). -/
inductive Input
  | bytes (bs : List UInt8)
  | shared (start stop : Nat)
deriving DecidableEq, Repr

/-- The parts of `EvmContext` used here. -/
structure Cx where
  gas : Nat
  /-- `gas.memory().words_num` and `expansion_cost`. -/
  words : Nat
  paid : Nat
  mem : Shared
  input : Input
  code : List UInt8
  ret : List UInt8
  static : Bool
  logs : List LogEntry
deriving DecidableEq, Repr

/-- A builtin. -/
abbrev M := EStateM Stop Cx

/-- Ends the frame with an error. -/
def failWith (e : Err) : M α := throw (.err e)

/-- `gas!` (macros.rs:2-9). -/
def charge (n : Nat) : M Unit := fun s =>
  if n ≤ s.gas then .ok () { s with gas := s.gas - n } else .error (.err .OutOfGas) s

/-- `try_into_usize!` (macros.rs:50-62). -/
def toUsize (w : Word) : M Nat := fun s =>
  if w.toNat < 2 ^ 64 then .ok w.toNat s else .error (.err .InvalidOperandOOG) s

/-- `SharedMemory::resize`: `Vec::resize`, which cannot exceed `isize::MAX`. -/
def resize (n : Nat) : M Unit := fun s =>
  if s.mem.cp + n < 2 ^ 63 then
    .ok () { s with
      mem := { s.mem with
        buf := s.mem.buf.take (s.mem.cp + n) ++ List.replicate (s.mem.cp + n - s.mem.buf.length) 0 } }
  else .error .panic s

/-- `ensure_memory` (utils.rs:84-95) with revm's `resize_memory` and `MemoryGas::set_words_num`; the subtraction is
unchecked. -/
def ensureMemory (off len : Nat) : M Unit := fun s =>
  let w := numWords (satAdd off len)
  if s.words < w then
    let cost := memoryCost w
    if cost < s.paid then .error .panic s
    else if cost - s.paid ≤ s.gas then
      resize (w * 32) { s with gas := s.gas - (cost - s.paid), words := w, paid := cost }
    else .error (.err .MemoryOOG) { s with words := w, paid := cost }
  else .ok () s

/-- `SharedMemory::slice`. -/
def slice (off len : Nat) : M (List UInt8) := fun s =>
  if s.mem.cp + off + len ≤ s.mem.buf.length then .ok ((s.mem.buf.drop (s.mem.cp + off)).take len) s
  else .error .panic s

/-- `SharedMemory::set`, and stores through the memory's address (translate/mod.rs:945-963). Nothing is accessed for no
bytes. -/
def put (off : Nat) (bs : List UInt8) : M Unit := fun s =>
  if bs = [] then .ok () s
  else if s.mem.cp + off + bs.length ≤ s.mem.buf.length then
    .ok () { s with
      mem := { s.mem with
        buf := s.mem.buf.take (s.mem.cp + off) ++ bs ++ s.mem.buf.drop (s.mem.cp + off + bs.length) } }
  else .error .panic s

/-- `set_data` (revm's memory): copies what there is and fills the rest with zeros. -/
def setData (dst src len : Nat) (data : List UInt8) : M Unit :=
  if len = 0 then pure ()
  else if data.length ≤ src then put dst (List.replicate len 0)
  else do
    put dst ((data.drop src).take (min (src + len) data.length - src))
    put (dst + (min (src + len) data.length - src)) (List.replicate (len - (min (src + len) data.length - src)) 0)

/-- The bytes of the call data: `CallInput::as_bytes_memory`, and the source of `set_data_from_global`, which must lie
before the frame's own memory. An empty range is not accessed. -/
def inputBytes : M (List UInt8) := fun s =>
  match s.input with
  | .bytes bs => .ok bs s
  | .shared a b =>
    if b ≤ a then .ok [] s
    else if b ≤ s.mem.cp ∧ b ≤ s.mem.buf.length then .ok ((s.mem.buf.drop a).take (b - a)) s
    else .error .panic s

/-- `CallInput::len`. -/
def inputLen (s : Cx) : Nat :=
  match s.input with
  | .bytes bs => bs.length
  | .shared a b => b - a

/-- The word at `sp[j]`; `sp` points to the last popped word. -/
def atSp (args : List Word) (j : Nat) : Word := args.reverse[j]?.getD 0

/-- `do_keccak256` (lib.rs:197-213). `KECCAK_EMPTY` is the hash of no bytes. -/
def doKeccak (hash : List UInt8 → Word) (offset : Word) (len : Nat) : M Word :=
  if len = 0 then pure (hash [])
  else do
    charge (keccakCost len)
    let offset ← toUsize offset
    ensureMemory offset len
    let data ← slice offset len
    pure (hash data)

/-- `__revmc_builtin_keccak256` (lib.rs:177-185): `rev![offset, len_ptr] = sp`. -/
def keccak (hash : List UInt8 → Word) (args : List Word) : M Word := do
  let len ← toUsize (atSp args 0)
  doKeccak hash (atSp args 1) len

/-- `__revmc_builtin_keccak256_cc` (lib.rs:187-195), used when both operands are constants below 2^64. -/
def keccakCC (hash : List UInt8 → Word) (offset len : BitVec 64) : M Word :=
  doKeccak hash (BitVec.ofNat 256 offset.toNat) len.toNat

/-- `__revmc_builtin_calldataload` and `do_calldataload` (lib.rs:233-265). -/
def calldataload (args : List Word) : M Word := fun s =>
  let off := satUsize (atSp args 0)
  if off < inputLen s then
    (do
      let bs ← inputBytes
      let count := min 32 (inputLen s - off)
      pure (fromBeSlice ((bs.drop off).take count ++ List.replicate (32 - count) 0))) s
  else .ok (fromBeSlice (List.replicate 32 0)) s

/-- `__revmc_builtin_calldatacopy` (lib.rs:267-290). -/
def calldatacopy (args : List Word) : M Word := do
  let len ← toUsize (atSp args 0)
  if len = 0 then pure 0
  else do
    charge (copyCost len)
    let m ← toUsize (atSp args 2)
    ensureMemory m len
    let data ← inputBytes
    setData m (satUsize (atSp args 1)) len data
    pure 0

/-- `__revmc_builtin_codecopy` (lib.rs:292-299) and `copy_operation` (utils.rs:97-112). -/
def codecopy (args : List Word) : M Word := do
  let len ← toUsize (atSp args 0)
  if len = 0 then pure 0
  else do
    charge (copyCost len)
    let m ← toUsize (atSp args 2)
    ensureMemory m len
    let s ← get
    setData m (satUsize (atSp args 1)) len s.code
    pure 0

/-- `load_account` (utils.rs:52-67): the account is cold if its first access costs more; the host skips a cold load that
the gas left does not cover. -/
def loadAccount (acct : Option (List UInt8 × Nat)) : M (List UInt8) := fun s =>
  match acct with
  | none => .error (.err .FatalExternalError) s
  | some (code, cold) =>
    if cold ≠ 0 ∧ s.gas < cold then .error (.err .OutOfGas) s
    else (do charge cold; pure code) s

/-- The destination of EXTCODECOPY, 0 for an empty copy (lib.rs:328-332). -/
def extcodecopyDest (off : Word) (len : Nat) : M Nat :=
  if len = 0 then pure 0
  else do
    let m ← toUsize off
    ensureMemory m len
    pure m

/-- `__revmc_builtin_extcodecopy` (lib.rs:318-340). -/
def extcodecopy (acct : Option (List UInt8 × Nat)) (args : List Word) : M Word := do
  let len ← toUsize (atSp args 0)
  charge (copyCost len)
  let m ← extcodecopyDest (atSp args 2) len
  let code ← loadAccount acct
  setData m (min (satUsize (atSp args 1)) code.length) len code
  pure 0

/-- `__revmc_builtin_returndatacopy` (lib.rs:342-363). -/
def returndatacopy (args : List Word) : M Word := do
  let len ← toUsize (atSp args 0)
  let off := satUsize (atSp args 1)
  let stop := satAdd off len
  let s ← get
  if s.ret.length < stop then failWith .OutOfOffset
  else do
    charge (copyCost len)
    if len = 0 then pure 0
    else do
      let m ← toUsize (atSp args 2)
      ensureMemory m len
      put m ((s.ret.drop off).take (stop - off))
      pure 0

/-- `__revmc_builtin_mcopy` (lib.rs:577-592); `SharedMemory::copy` is `copy_within`. -/
def mcopy (args : List Word) : M Word := do
  let len ← toUsize (atSp args 0)
  charge (copyCost len)
  if len = 0 then pure 0
  else do
    let dst ← toUsize (atSp args 2)
    let src ← toUsize (atSp args 1)
    ensureMemory (max dst src) len
    let bs ← slice src len
    put dst bs
    pure 0

/-- The topics `__revmc_builtin_log` reads: `sp.sub(i)` for `i` in `1..=n`, after `sp.add(n)` (lib.rs:601, 615-618). -/
def logTopics (args : List Word) (n : Nat) : List Word := (List.range n).map fun i => atSp args (n - (i + 1))

/-- The bytes of a memory range, nothing for an empty one (lib.rs:606-612, 656-659, 832-838). -/
def readRange (off : Word) (len : Nat) : M (List UInt8) :=
  if len = 0 then pure []
  else do
    let off ← toUsize off
    ensureMemory off len
    slice off len

/-- `__revmc_builtin_log` (lib.rs:594-630). -/
def log (n : Nat) (args : List Word) : M Word := do
  let s ← get
  if s.static then failWith .StateChangeDuringStaticCall
  else do
    let len ← toUsize (atSp args n)
    charge (logCost n len)
    let data ← readRange (atSp args (n + 1)) len
    modify fun s => { s with logs := s.logs ++ [(logTopics args n, data)] }
    pure 0

/-- The check of MLOAD, MSTORE and MSTORE8 without knowledge of earlier accesses: `build_ensure_memory`
(translate/mod.rs:1686-1722), with `mresize` (lib.rs:475-477). The offset is the value to use. -/
def checkMem (offset : Word) (len : BitVec 64) : M Nat := fun s =>
  match ensureMem offset len (BitVec.ofNat 64 (s.mem.buf.length - s.mem.cp)) with
  | .fast off => .ok off.toNat s
  | .resize n off => (do ensureMemory n.toNat 0; pure off.toNat) s

/-- MLOAD, on a little-endian machine (translate/mod.rs:945-950). -/
def mload (args : List Word) : M Word := do
  let off ← checkMem (args[0]?.getD 0) 32
  let bs ← slice off 32
  pure (bswap (nativeLoad true bs))

/-- MSTORE (translate/mod.rs:952-957). -/
def mstore (args : List Word) : M Word := do
  let off ← checkMem (args[0]?.getD 0) 32
  put off (nativeStore true (bswap (args[1]?.getD 0)))
  pure 0

/-- MSTORE8 (translate/mod.rs:959-963). -/
def mstore8 (args : List Word) : M Word := do
  let off ← checkMem (args[0]?.getD 0) 1
  put off [UInt8.ofNat (args[1]?.getD 0).toNat]
  pure 0

/-- The code of an instruction; operands are given top first. -/
def exec (hash : List UInt8 → Word) (o : Nat) (args : List Word) (acct : Option (List UInt8 × Nat)) : M Word :=
  if o = 0x20 then keccak hash args
  else if o = 0x35 then calldataload args
  else if o = 0x37 then calldatacopy args
  else if o = 0x39 then codecopy args
  else if o = 0x3c then extcodecopy acct args
  else if o = 0x3e then returndatacopy args
  else if o = 0x51 then mload args
  else if o = 0x52 then mstore args
  else if o = 0x53 then mstore8 args
  else if o = 0x5e then mcopy args
  else log (o - 0xa0) args

/-- `__revmc_builtin_do_return` (lib.rs:825-842): the output. -/
def doReturn (off len : Word) : M (List UInt8) := do
  let len ← toUsize len
  readRange off len

/-- `__revmc_builtin_do_return_cc` (lib.rs:844-862), used when both operands are constants below 2^64. -/
def doReturnCC (off len : BitVec 64) : M (List UInt8) :=
  if len.toNat = 0 then pure []
  else do
    ensureMemory off.toNat len.toNat
    slice off.toNat len.toNat

/-- What `__revmc_builtin_call` and `__revmc_builtin_create` put into `next_action`, as far as it matters here. -/
structure Request where
  gas : Nat
  input : Input
  code : List UInt8
  static : Bool
  /-- `return_memory_offset`. -/
  outStart : Nat
  outStop : Nat
deriving DecidableEq, Repr

/-- A memory range of `__revmc_builtin_call` (lib.rs:735-756): its start and length, grown. -/
def callRange (off len : Word) : M (Option (Nat × Nat)) := do
  let len ← toUsize len
  if len = 0 then pure none
  else do
    let off ← toUsize off
    ensureMemory off len
    pure (some (off, len))

/-- `call_stipend_reduction` (revm). -/
def reduce64 (g : Nat) : Nat := g - g / 64

/-- The gas `load_account_delegated` (revm) asks for, unless it fails (lib.rs:762-773). -/
def delegated (dyn : Option Nat) : M Nat :=
  match dyn with
  | none => failWith .FatalExternalError
  | some dyn => pure dyn

/-- The input of `CallInputs` as a range of the shared buffer (lib.rs:736-746). -/
def callInput (cp : Nat) : Option (Nat × Nat) → Nat × Nat
  | some (off, len) => (satAdd off cp, satAdd (satAdd off cp) len)
  | none => (2 ^ 64 - 1, 2 ^ 64 - 1)

/-- `__revmc_builtin_call` (lib.rs:701-823). `pop!` takes the words from the top, so the operands are read top first.
`dyn` is the answer of `load_account_delegated`. -/
def call (R : Rules) (o : Nat) (args : List Word) (dyn : Option Nat) (code : List UInt8) : M Request := do
  let a (k : Nat) : Word := args[k]?.getD 0
  let req := satUsize (a 0)
  let hasValue : Bool := o == 0xf1 || o == 0xf2
  let value := if hasValue then (a 2).toNat else 0
  let s ← get
  if o = 0xf1 ∧ s.static ∧ value ≠ 0 then failWith .CallNotAllowedInsideStatic
  else do
    let p := if hasValue then 3 else 2
    let inR ← callRange (a p) (a (p + 1))
    let s ← get
    let input := callInput s.mem.cp inR
    let outR ← callRange (a (p + 2)) (a (p + 3))
    let out := outR.getD (2 ^ 64 - 1, 0)
    charge (if value ≠ 0 then 9000 else 0)
    let dyn ← delegated dyn
    charge dyn
    let s ← get
    let limit := if R.eip150 then min (reduce64 s.gas) req else req
    charge limit
    pure
      { gas := if hasValue ∧ value ≠ 0 then satAdd limit 2300 else limit
        input := .shared input.1 input.2, code := code, static := s.static || o == 0xfa
        outStart := out.1, outStop := out.1 + out.2 }

/-- The limit and cost of init code (lib.rs:646-654). -/
def initcode (R : Rules) (len : Nat) : M Unit :=
  if len ≠ 0 ∧ R.eip3860 then
    if R.maxInit < len then failWith .CreateInitCodeSizeLimit else charge (initcodeCost len)
  else pure ()

/-- `__revmc_builtin_create` (lib.rs:632-698). -/
def create (R : Rules) (o : Nat) (args : List Word) : M Request := do
  let s ← get
  if s.static then failWith .StateChangeDuringStaticCall
  else do
    let len ← toUsize (args[2]?.getD 0)
    initcode R len
    let code ← readRange (args[1]?.getD 0) len
    charge (if o = 0xf5 then create2Cost len else 32000)
    let s ← get
    let limit := if R.eip150 then reduce64 s.gas else s.gas
    charge limit
    pure { gas := limit, input := .bytes [], code := code, static := false, outStart := 0, outStop := 0 }

/-- The context of a new frame: `SharedMemory::new_child_context` puts its checkpoint at the end of the buffer. -/
def Cx.child (s : Cx) (r : Request) : Cx :=
  { gas := r.gas, words := 0, paid := 0, mem := { s.mem with cp := s.mem.buf.length }, input := r.input, code := r.code
    ret := [], static := r.static, logs := s.logs }

/-- The caller's context after a frame ended in `t`: `SharedMemory::free_child_context` cuts the buffer at the frame's
checkpoint; the caller's checkpoint is its own. -/
def Cx.resume (s t : Cx) : Cx :=
  { s with mem := { buf := t.mem.buf.take t.mem.cp, cp := s.mem.cp }, logs := t.logs }

/-- A frame: returns whether it reverted, and its data. An error ends the frame; a panic ends everything. -/
def run (hash : List UInt8 → Word) (R : Rules) : Act → M (Bool × List UInt8)
  | .stop, s => .ok (false, []) s
  | .fail, s => .error (.err .OutOfGas) s
  | .ret rev off len, s => (do let d ← doReturn off len; pure (rev, d)) s
  | .step o args acct next, s =>
    match exec hash o args acct s with
    | .error e s => .error e s
    | .ok w s => run hash R (next w s.gas) s
  | .call o args dyn code child next, s =>
    match call R o args dyn code s with
    | .error e s => .error e s
    | .ok r s =>
      match run hash R child (s.child r) with
      | .error .panic t => .error .panic t
      | .error (.err _) t =>
        let s := { s.resume t with ret := [] }
        run hash R (next false s.gas) s
      | .ok (rev, data) t =>
        let s := { s.resume t with ret := data, gas := s.gas + t.gas }
        match put r.outStart (data.take (r.outStop - r.outStart)) s with
        | .error e s => .error e s
        | .ok () s => run hash R (next (!rev) s.gas) s
  | .create o args deposit child next, s =>
    match create R o args s with
    | .error e s => .error e s
    | .ok r s =>
      match run hash R child (s.child r) with
      | .error .panic t => .error .panic t
      | .error (.err _) t =>
        let s := { s.resume t with ret := [] }
        run hash R (next false s.gas) s
      | .ok (true, data) t =>
        let s := { s.resume t with ret := data, gas := s.gas + t.gas }
        run hash R (next false s.gas) s
      | .ok (false, data) t =>
        if deposit data ≤ t.gas then
          let s := { s.resume t with ret := [], gas := s.gas + (t.gas - deposit data) }
          run hash R (next true s.gas) s
        else
          let s := { s.resume t with ret := [] }
          run hash R (next false s.gas) s

/-- The context of a transaction's first frame: empty memory, its own call data. -/
def Cx.first (gas : Nat) (input code : List UInt8) (static : Bool) : Cx :=
  { gas := gas, words := 0, paid := 0, mem := { buf := [], cp := 0 }, input := .bytes input, code := code, ret := []
    static := static, logs := [] }

/-- How a run ended and the logs it made; nothing if it panicked. -/
def outcome : EStateM.Result Stop Cx (Bool × List UInt8) → Option (Spec.Ending × List LogEntry)
  | .ok (rev, data) t => some (.done rev data t.gas, t.logs)
  | .error (.err _) t => some (.halt, t.logs)
  | .error .panic _ => none

end Verif.Frames
