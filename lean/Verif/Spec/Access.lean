import Verif.Model.Opcode
/-!
# Instructions that read and write the state: what they cost and do

Written from the Yellow Paper and the EIPs (150, 161, 1884, 2200, 2929, 3529, 1153, 4399, 4844, 8037), with the whole
cost of an instruction in one number and without reference to builtins, hosts or gas parameters. Constants come from
the EIPs.
-/

namespace Verif.Spec

/-- The state as far as one transaction sees it. The accessed sets (EIP-2929) are always kept; they matter from Berlin
on. -/
structure Ledger where
  balance : Nat → Word
  code : Nat → List UInt8
  codeHash : Nat → Word
  /-- No account there. -/
  missing : Nat → Bool
  /-- EIP-161: no code, nonce or balance. -/
  empty : Nat → Bool
  /-- Storage at the start of the transaction. -/
  original : Nat → Word → Word
  storage : Nat → Word → Word
  transient : Nat → Word → Word
  accessed : Nat → Bool
  accessedSlot : Nat → Word → Bool
  /-- Self-destructs performed in this transaction: contract and beneficiary, latest first. -/
  destroyed : List (Nat × Nat)

/-- Gas left, refund counter, state-gas reservoir (EIP-8037) and state. -/
structure Machine where
  gas : Nat
  refund : Int
  reservoir : Nat
  world : Ledger

/-- What a frame and its block give. -/
structure Surroundings where
  fork : SpecId
  self : Nat
  static : Bool
  difficulty : Word
  prevRandao : Word
  blobs : List Word
  /-- EIP-8037: whether it is on, the state gas of a storage write and what it gives back (of the original, current and
  new value), and the state gas of a new account. -/
  stateGas : Bool
  slotState : Word → Word → Word → Nat
  slotBack : Word → Word → Word → Nat
  accountState : Nat

/-- The instructions. -/
inductive Access
  | balance (addr : Word) | extcodesize (addr : Word) | extcodehash (addr : Word) | selfbalance
  | difficulty | blobhash (index : Word)
  | sload (key : Word) | sstore (key value : Word) | tload (key : Word) | tstore (key value : Word)
  | selfdestruct (beneficiary : Word)
deriving DecidableEq, Repr

/-- How an instruction ends: with an answer, by ending the frame, or exceptionally (too little gas, a write in a static
frame): everything is undone and all gas is lost, so the reasons need not be told apart. -/
inductive Verdict
  | goesOn (answer : Option Word) (m : Machine)
  | ends (m : Machine)
  | exceptional

/-- An address is the low 160 bits of a word. -/
def addressOf (w : Word) : Nat := w.toNat % 2 ^ 160

/-- The cost of reading an account: by fork before Berlin, by access after. -/
def accountGas (f : SpecId) (frontier tangerine istanbul : Nat) (warm : Bool) : Nat :=
  if SpecId.BERLIN ≤ f then (if warm then 100 else 2600)
  else if SpecId.ISTANBUL ≤ f then istanbul
  else if SpecId.TANGERINE ≤ f then tangerine
  else frontier

/-- SLOAD (EIP-150, 1884, 2929). -/
def sloadGas (f : SpecId) (warm : Bool) : Nat :=
  if SpecId.BERLIN ≤ f then (if warm then 100 else 2100)
  else if SpecId.ISTANBUL ≤ f then 800
  else if SpecId.TANGERINE ≤ f then 200
  else 50

/-- SSTORE of `n` over `c`, with `o` at the start of the transaction (Yellow Paper; EIP-2200 with EIP-2929). -/
def sstoreGas (f : SpecId) (warm : Bool) (o c n : Word) : Nat :=
  if SpecId.ISTANBUL ≤ f then
    let read := if SpecId.BERLIN ≤ f then 100 else 800
    let reset := if SpecId.BERLIN ≤ f then 2900 else 5000
    (if SpecId.BERLIN ≤ f ∧ warm = false then 2100 else 0) +
      (if c = n then read
       else if o = c then (if o = 0 then 20000 else reset)
       else read)
  else if c = 0 ∧ n ≠ 0 then 20000 else 5000

/-- What SSTORE adds to the refund counter (Yellow Paper; EIP-2200 with EIP-2929 and EIP-3529). -/
def sstoreRefund (f : SpecId) (o c n : Word) : Int :=
  let clears : Int := if SpecId.LONDON ≤ f then 4800 else 15000
  if SpecId.ISTANBUL ≤ f then
    let read : Int := if SpecId.BERLIN ≤ f then 100 else 800
    let reset : Int := if SpecId.BERLIN ≤ f then 2900 else 5000
    if c = n then 0
    else if o = c then (if n = 0 then clears else 0)
    else
      (if o = 0 then 0 else if c = 0 then -clears else if n = 0 then clears else 0) +
      (if o = n then (if o = 0 then 20000 - read else reset - read) else 0)
  else if c ≠ 0 ∧ n = 0 then clears else 0

/-- SELFDESTRUCT (EIP-150, 161, 2929). -/
def selfdestructGas (f : SpecId) (warm newAccount : Bool) : Nat :=
  (if SpecId.TANGERINE ≤ f then 5000 else 0) +
  (if SpecId.TANGERINE ≤ f ∧ newAccount then 25000 else 0) +
  (if SpecId.BERLIN ≤ f ∧ warm = false then 2600 else 0)

/-- Whether a self-destruct creates the beneficiary's account. -/
def createsAccount (f : SpecId) (w : Ledger) (self target : Nat) : Bool :=
  if SpecId.SPURIOUS_DRAGON ≤ f then w.balance self != 0 && w.empty target else w.missing target

/-- Pays regular gas. -/
def Machine.pay (m : Machine) (n : Nat) : Option Machine :=
  if n ≤ m.gas then some { m with gas := m.gas - n } else none

/-- Pays state gas: from the reservoir first, the rest from the regular gas. -/
def Machine.payState (m : Machine) (n : Nat) : Option Machine :=
  if n ≤ m.reservoir + m.gas then
    some { m with reservoir := m.reservoir - n, gas := m.gas - (n - m.reservoir) }
  else none

/-- The address becomes accessed. -/
def Ledger.touch (w : Ledger) (a : Nat) : Ledger :=
  { w with accessed := fun x => if x = a then true else w.accessed x }

/-- The slot becomes accessed. -/
def Ledger.touchSlot (w : Ledger) (a : Nat) (k : Word) : Ledger :=
  { w with accessedSlot := fun x y => if x = a ∧ y = k then true else w.accessedSlot x y }

/-- Writes storage. -/
def Ledger.write (w : Ledger) (a : Nat) (k v : Word) : Ledger :=
  { w with storage := fun x y => if x = a ∧ y = k then v else w.storage x y }

/-- Writes transient storage. -/
def Ledger.writeTransient (w : Ledger) (a : Nat) (k v : Word) : Ledger :=
  { w with transient := fun x y => if x = a ∧ y = k then v else w.transient x y }

/-- An exceptional end unless it can be paid. -/
def orOutOfGas : Option Machine → (Machine → Verdict) → Verdict
  | none, _ => .exceptional
  | some m, k => k m

/-- Reads something of an account. -/
def readAccount (m : Machine) (a cost : Nat) (f : Ledger → Word) : Verdict :=
  orOutOfGas (m.pay cost) fun m => .goesOn (some (f m.world)) { m with world := m.world.touch a }

/-- What an instruction does. -/
def access (s : Surroundings) (m : Machine) : Access → Verdict
  | .balance addr =>
    let a := addressOf addr
    readAccount m a (accountGas s.fork 20 400 700 (m.world.accessed a)) fun w => w.balance a
  | .extcodesize addr =>
    let a := addressOf addr
    readAccount m a (accountGas s.fork 20 700 700 (m.world.accessed a)) fun w => BitVec.ofNat 256 (w.code a).length
  | .extcodehash addr =>
    let a := addressOf addr
    readAccount m a (accountGas s.fork 400 400 700 (m.world.accessed a))
      fun w => if w.empty a then 0 else w.codeHash a
  | .selfbalance => orOutOfGas (m.pay 5) fun m => .goesOn (some (m.world.balance s.self)) m
  | .difficulty =>
    orOutOfGas (m.pay 2) fun m =>
      .goesOn (some (if SpecId.MERGE ≤ s.fork then s.prevRandao else s.difficulty)) m
  | .blobhash i => orOutOfGas (m.pay 3) fun m => .goesOn (some (s.blobs[i.toNat]?.getD 0)) m
  | .sload k =>
    orOutOfGas (m.pay (sloadGas s.fork (m.world.accessedSlot s.self k))) fun m =>
      .goesOn (some (m.world.storage s.self k)) { m with world := m.world.touchSlot s.self k }
  | .sstore k v =>
    if s.static then .exceptional
    else if SpecId.ISTANBUL ≤ s.fork ∧ m.gas ≤ 2300 then .exceptional
    else
      let o := m.world.original s.self k
      let c := m.world.storage s.self k
      orOutOfGas (m.pay (sstoreGas s.fork (m.world.accessedSlot s.self k) o c v)) fun m =>
      orOutOfGas (if s.stateGas then m.payState (s.slotState o c v) else some m) fun m =>
        .goesOn none { m with
          reservoir := m.reservoir + (if s.stateGas then s.slotBack o c v else 0)
          refund := m.refund + sstoreRefund s.fork o c v
          world := (m.world.touchSlot s.self k).write s.self k v }
  | .tload k => orOutOfGas (m.pay 100) fun m => .goesOn (some (m.world.transient s.self k)) m
  | .tstore k v =>
    if s.static then .exceptional
    else orOutOfGas (m.pay 100) fun m => .goesOn none { m with world := m.world.writeTransient s.self k v }
  | .selfdestruct b =>
    let t := addressOf b
    if s.static then .exceptional
    else
      let new := createsAccount s.fork m.world s.self t
      orOutOfGas (m.pay (selfdestructGas s.fork (m.world.accessed t) new)) fun m =>
      orOutOfGas (if s.stateGas && new then m.payState s.accountState else some m) fun m =>
        .ends { m with
          refund := m.refund +
            (if SpecId.LONDON ≤ s.fork ∨ (m.world.destroyed.any fun x => x.1 == s.self) then 0 else 24000)
          world := { (m.world.touch t) with destroyed := (s.self, t) :: m.world.destroyed } }

/-- A run of instructions: the answers and how it ends. -/
def accessAll (s : Surroundings) : Machine → List Access → List (Option Word) × Verdict
  | m, [] => ([], .goesOn none m)
  | m, i :: is => match access s m i with
    | .goesOn a m => let r := accessAll s m is; (a :: r.1, r.2)
    | v => ([], v)

end Verif.Spec
