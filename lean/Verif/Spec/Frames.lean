import Verif.Spec.WholeMem
/-!
# Frames with memory, data and gas

Nested EVM frames: each has its own memory, its own copy of its call data, code and return data. What a frame does is a
tree whose branches are the answers the frame gets, so that every instruction may depend on all earlier answers. Only
the instructions that touch memory or data are steps; the gas here is what they cost beyond the fixed cost of their
opcode. Written without reference to builtins, shared buffers or machine integers.
-/

namespace Verif.Spec

/-- A log: topics and data. -/
abbrev LogEntry := List Word × List UInt8

/-- What a frame has. -/
structure EvmFrame where
  gas : Nat
  mem : List UInt8
  input : List UInt8
  code : List UInt8
  ret : List UInt8
  static : Bool
  /-- Logs in the order they were made, also those of called frames. -/
  logs : List LogEntry
deriving DecidableEq, Repr

/-- Whole words of `n` bytes. -/
def wordsOf (n : Nat) : Nat := (n + 31) / 32

/-- The Yellow Paper's cost of a memory of `n` bytes. -/
def memGas (n : Nat) : Nat := 3 * wordsOf n + wordsOf n * wordsOf n / 512

/-- `l` bytes of some data from `o` on; zero beyond its end. -/
def window (data : List UInt8) (o l : Nat) : List UInt8 := (List.range l).map fun j => data[o + j]?.getD 0

/-- Pays `c` and for touching the ranges, and grows the memory; `none` if this cannot be paid. -/
def pay (f : EvmFrame) (c : Nat) (rs : List (Nat × Nat)) : Option EvmFrame :=
  let n := growAll f.mem.length rs
  let total := c + (memGas n - memGas f.mem.length)
  if total ≤ f.gas then some { f with gas := f.gas - total, mem := expand f.mem n } else none

/-- The `k`-th operand. -/
def arg (args : List Word) (k : Nat) : Nat := (args[k]?.getD 0).toNat

/-- The instructions that are steps of a frame, with the number of their operands: KECCAK256, CALLDATALOAD,
CALLDATACOPY, CODECOPY, EXTCODECOPY, RETURNDATACOPY, MLOAD, MSTORE, MSTORE8, MCOPY, LOG0..LOG4. -/
def dataOps : List (Nat × Nat) :=
  [(0x20, 2), (0x35, 1), (0x37, 3), (0x39, 3), (0x3c, 4), (0x3e, 3), (0x51, 1), (0x52, 2), (0x53, 2), (0x5e, 3),
    (0xa0, 2), (0xa1, 3), (0xa2, 4), (0xa3, 5), (0xa4, 6)]

/-- What a step costs beyond the fixed cost of its opcode and the growth of memory. -/
def stepCost (o : Nat) (args : List Word) : Nat :=
  if o = 0x20 then 6 * wordsOf (arg args 1)
  else if o = 0x37 ∨ o = 0x39 ∨ o = 0x3e ∨ o = 0x5e then 3 * wordsOf (arg args 2)
  else if o = 0x3c then 3 * wordsOf (arg args 3)
  else if 0xa0 ≤ o ∧ o ≤ 0xa4 then 375 * (o - 0xa0) + 8 * arg args 1
  else 0

/-- Whether a step is allowed: no logs in static frames, no copies from beyond the return data, and EXTCODECOPY needs
the account. -/
def stepAllowed (o : Nat) (args : List Word) (acct : Option (List UInt8 × Nat)) (f : EvmFrame) : Bool :=
  !(decide (0xa0 ≤ o) && decide (o ≤ 0xa4) && f.static) &&
  (o != 0x3e || decide (arg args 1 + arg args 2 ≤ f.ret.length)) &&
  (o != 0x3c || acct.isSome)

/-- What a step does, once it is paid for: the frame and the word it answers (zero if it answers nothing). -/
def stepDo (hash : List UInt8 → Word) (o : Nat) (args : List Word) (acct : Option (List UInt8 × Nat)) (f : EvmFrame) :
    EvmFrame × Word :=
  let a := arg args
  let copy (data : List UInt8) (dst src len : Nat) : EvmFrame × Word :=
    ({ f with mem := overwrite f.mem dst (window data src len) }, 0)
  if o = 0x20 then (f, hash (window f.mem (a 0) (a 1)))
  else if o = 0x35 then (f, beWord (window f.input (a 0) 32))
  else if o = 0x37 then copy f.input (a 0) (a 1) (a 2)
  else if o = 0x39 then copy f.code (a 0) (a 1) (a 2)
  else if o = 0x3c then copy ((acct.map Prod.fst).getD []) (a 1) (a 2) (a 3)
  else if o = 0x3e then copy f.ret (a 0) (a 1) (a 2)
  else if o = 0x51 then (f, beWord (window f.mem (a 0) 32))
  else if o = 0x52 then ({ f with mem := overwrite f.mem (a 0) (beBytes (args[1]?.getD 0)) }, 0)
  else if o = 0x53 then ({ f with mem := overwrite f.mem (a 0) [UInt8.ofNat (a 1)] }, 0)
  else if o = 0x5e then copy f.mem (a 0) (a 1) (a 2)
  else ({ f with logs := f.logs ++ [(args.drop 2, window f.mem (a 0) (a 1))] }, 0)

/-- A step: `acct` is the host's answer to EXTCODECOPY, the code of the account and the extra cost of its first access. -/
def step (hash : List UInt8 → Word) (o : Nat) (args : List Word) (acct : Option (List UInt8 × Nat)) (f : EvmFrame) :
    Option (EvmFrame × Word) :=
  if stepAllowed o args acct f then
    (pay f (stepCost o args + if o = 0x3c then ((acct.map Prod.snd).getD 0) else 0) (memRanges o args)).map
      (stepDo hash o args acct)
  else none

/-- What a frame does. -/
inductive Act
  /-- STOP: returns nothing. -/
  | stop
  /-- An exceptional halt. -/
  | fail
  /-- RETURN or REVERT of a memory range. -/
  | ret (revert : Bool) (off len : Word)
  /-- A step; it goes on with the answer and the gas left. -/
  | step (o : Nat) (args : List Word) (acct : Option (List UInt8 × Nat)) (next : Word → Nat → Act)
  /-- CALL, CALLCODE, DELEGATECALL, STATICCALL: `dyn` is the cost of accessing the account (`none` if the host fails),
  `code` the code that runs as `child`. -/
  | call (o : Nat) (args : List Word) (dyn : Option Nat) (code : List UInt8) (child : Act) (next : Bool → Nat → Act)
  /-- CREATE, CREATE2: `deposit` is the cost of storing what the init code returns. -/
  | create (o : Nat) (args : List Word) (deposit : List UInt8 → Nat) (child : Act) (next : Bool → Nat → Act)

/-- How a frame ended: with an exceptional halt, or with data and the gas left. -/
inductive Ending
  | halt
  | done (reverted : Bool) (data : List UInt8) (gas : Nat)
deriving DecidableEq, Repr

/-- The rules of a fork: EIP-150 (all but one 64th), EIP-3860 (init code is limited and costs 2 per word) and the
limit. -/
structure Rules where
  eip150 : Bool
  eip3860 : Bool
  maxInit : Nat

/-- Whether a call has a value operand that is not zero. -/
def callValue (o : Nat) (args : List Word) : Bool := (o == 0xf1 || o == 0xf2) && arg args 2 != 0

/-- The gas given to a called frame out of `g`: what is asked for, from EIP-150 on at most all but one 64th. -/
def forward (R : Rules) (req g : Nat) : Nat := if R.eip150 then min (g - g / 64) req else req

/-- What is left of the caller's frame while a call runs, and the frame of the callee. `none`: the call is an exceptional halt. -/
def callEnter (R : Rules) (o : Nat) (args : List Word) (dyn : Option Nat) (code : List UInt8) (f : EvmFrame) :
    Option (EvmFrame × EvmFrame) :=
  if o = 0xf1 ∧ f.static ∧ callValue o args then none
  else
    match dyn with
    | none => none
    | some dyn =>
      (pay f ((if callValue o args then 9000 else 0) + dyn) (memRanges o args)).bind fun f =>
        let sent := forward R (arg args 0) f.gas
        if sent ≤ f.gas then
          let p := if o = 0xf1 ∨ o = 0xf2 then 3 else 2
          some ({ f with gas := f.gas - sent },
            { gas := sent + (if callValue o args then 2300 else 0), mem := []
              input := window f.mem (arg args p) (arg args (p + 1))
              code := code, ret := [], static := f.static || o == 0xfa, logs := f.logs })
        else none

/-- The caller's frame after the call: the callee's data is the return data, as much as fits is written to memory, the
callee's gas comes back. -/
def callLeave (o : Nat) (args : List Word) (f : EvmFrame) (e : Ending) (logs : List LogEntry) : EvmFrame × Bool :=
  let p := if o = 0xf1 ∨ o = 0xf2 then 5 else 4
  match e with
  | .halt => ({ f with ret := [], logs := logs }, false)
  | .done rev data g =>
    ({ f with
        gas := f.gas + g, ret := data, logs := logs
        mem := overwrite f.mem (arg args p) (data.take (arg args (p + 1))) }, !rev)

/-- Entering a creation: the callee's code is the memory range. -/
def createEnter (R : Rules) (o : Nat) (args : List Word) (f : EvmFrame) : Option (EvmFrame × EvmFrame) :=
  if f.static then none
  else if R.eip3860 ∧ R.maxInit < arg args 2 then none
  else
    (pay f (32000 + (if R.eip3860 then 2 * wordsOf (arg args 2) else 0) +
        (if o = 0xf5 then 6 * wordsOf (arg args 2) else 0)) (memRanges o args)).map fun f =>
      let sent := forward R f.gas f.gas
      ({ f with gas := f.gas - sent },
        { gas := sent, mem := [], input := [], code := window f.mem (arg args 1) (arg args 2), ret := []
          static := false, logs := f.logs })

/-- After a creation. -/
def createLeave (deposit : List UInt8 → Nat) (f : EvmFrame) (e : Ending) (logs : List LogEntry) : EvmFrame × Bool :=
  match e with
  | .halt => ({ f with ret := [], logs := logs }, false)
  | .done true data g => ({ f with gas := f.gas + g, ret := data, logs := logs }, false)
  | .done false data g =>
    if deposit data ≤ g then ({ f with gas := f.gas + (g - deposit data), ret := [], logs := logs }, true)
    else ({ f with ret := [], logs := logs }, false)

/-- How a frame ends, and the logs made so far. -/
def runFrame (hash : List UInt8 → Word) (R : Rules) : Act → EvmFrame → Ending × List LogEntry
  | .stop, f => (.done false [] f.gas, f.logs)
  | .fail, f => (.halt, f.logs)
  | .ret rev off len, f =>
    match pay f 0 [(off.toNat, len.toNat)] with
    | none => (.halt, f.logs)
    | some f => (.done rev (window f.mem off.toNat len.toNat) f.gas, f.logs)
  | .step o args acct next, f =>
    match step hash o args acct f with
    | none => (.halt, f.logs)
    | some (f, w) => runFrame hash R (next w f.gas) f
  | .call o args dyn code child next, f =>
    match callEnter R o args dyn code f with
    | none => (.halt, f.logs)
    | some (f, g) =>
      let r := runFrame hash R child g
      let q := callLeave o args f r.1 r.2
      runFrame hash R (next q.2 q.1.gas) q.1
  | .create o args deposit child next, f =>
    match createEnter R o args f with
    | none => (.halt, f.logs)
    | some (f, g) =>
      let r := runFrame hash R child g
      let q := createLeave deposit f r.1 r.2
      runFrame hash R (next q.2 q.1.gas) q.1

/-- Numbers of operands are right, and data the host gives is shorter than `2^63` bytes. -/
def Act.Fits : Act → Prop
  | .stop | .fail | .ret .. => True
  | .step o args acct next =>
    (o, args.length) ∈ dataOps ∧ (∀ p, acct = some p → p.1.length < 2 ^ 63) ∧ ∀ w g, (next w g).Fits
  | .call o args _ code child next =>
    (o, args.length) ∈ [(0xf1, 7), (0xf2, 7), (0xf4, 6), (0xfa, 6)] ∧ code.length < 2 ^ 63 ∧ child.Fits ∧
      ∀ w g, (next w g).Fits
  | .create o args _ child next => (o, args.length) ∈ [(0xf0, 3), (0xf5, 4)] ∧ child.Fits ∧ ∀ w g, (next w g).Fits

end Verif.Spec
