import Verif.Lemmas.Builtins
import Verif.Spec.Code
/-!
# Specification: call gas and static calls
-/

namespace Verif.Builtins

/-- Memory size in words after touching `[off, off + len)` (nothing if `len = 0`). -/
def Spec.touched (words : Nat) (off len : Word) : Nat :=
  if len = 0 then words else max words ((min (off.toNat + len.toNat) (2 ^ 64 - 1) + 31) / 32)

/-- An environment with mainnet-like numbers, for the examples. -/
def mainnet (spec : SpecId) : Env :=
  { spec, memCost := fun w => 3 * w + w * w / 512, copyCost := fun n => 3 * ((n + 31) / 32)
    transferValueCost := 9000, callStipend := 2300, stipendDiv := 64, sstoreStatic := 0
    sstoreDynamic := fun _ _ => some 2900, logCost := fun n l => 375 * n + 8 * l
    initcodeCost := fun n => 2 * ((n + 31) / 32), createCost := 32000
    create2Cost := fun n => 32000 + 6 * ((n + 31) / 32), maxInitcode := 49152
    loadDelegated := fun _ _ _ => .ok (2500, 0), eip8037 := false, createStateGas := 0
    selfdestructCost := fun _ => .ok 5000 }

/-- What one frame does, in order: state-changing builtins, sub-calls and contract creations with
what the child does, and the gas returned by the child. Everything else a program does changes no
state. -/
inductive Tree
  | done
  | sstore (k v : Word) (next : Tree)
  | tstore (k v : Word) (next : Tree)
  | log (n : Nat) (off len : Word) (next : Tree)
  | selfdestruct (t : Nat)
  | create (is2 : Bool) (v off len : Word) (child : Tree) (back : Nat) (next : Tree)
  | call (kind : CallKind) (req : Word) (to : Nat) (v a b c d : Word) (child : Tree) (back : Nat)
      (next : Tree)

/-- A change of the world state. -/
inductive Change
  | write (h : HostWrite)
  | transfer (src dst value : Nat)
  | create (by_ : Nat)
deriving DecidableEq, Repr

/-- The host requests recorded by a builtin. -/
def writes (r : EStateM.Result Err Ecx Unit) : List Change :=
  match r with
  | .ok _ s | .error _ s => s.host.map .write

/-- The state change made by entering a child frame. -/
def entering (c : Child) : List Change :=
  if c.isCreate then [.create c.caller]
  else if c.transfer ≠ 0 ∧ c.caller ≠ c.target then [.transfer c.caller c.target c.transfer] else []

/-- All state changes requested while running a frame and its children (before any revert). The child
runs in a new context made from the `NewFrame` action (`is_static` is passed through by revm). -/
def run (env : Env) : Tree → Ecx → List Change
  | .done, _ => []
  | .sstore k v next, s =>
    let r := sstore env k v { s with host := [] }
    writes r ++ match r with
      | .ok _ s' => run env next s'
      | .error _ _ => []
  | .tstore k v next, s =>
    let r := tstore k v { s with host := [] }
    writes r ++ match r with
      | .ok _ s' => run env next s'
      | .error _ _ => []
  | .log n off len next, s =>
    let r := log env n off len { s with host := [] }
    writes r ++ match r with
      | .ok _ s' => run env next s'
      | .error _ _ => []
  | .selfdestruct t, s => writes (selfdestruct env t { s with host := [] })
  | .create is2 v off len child back next, s =>
    match create env is2 v off len { s with host := [], nextAction := none } with
    | .error _ s' => s'.host.map .write
    | .ok _ s' =>
      match s'.nextAction with
      | none => []
      | some c =>
        entering c ++
          run env child { isStatic := c.isStatic, gas := c.gasLimit, self := c.target, caller := c.caller } ++
          run env next { s' with gas := s'.gas + back }
  | .call kind req to v a b c d child back next, s =>
    match call env kind req to v a b c d { s with host := [], nextAction := none } with
    | .error _ s' => s'.host.map .write
    | .ok _ s' =>
      match s'.nextAction with
      | none => []
      | some c =>
        entering c ++
          run env child { isStatic := c.isStatic, gas := c.gasLimit, self := c.target, caller := c.caller } ++
          run env next { s' with gas := s'.gas + back }

end Verif.Builtins
