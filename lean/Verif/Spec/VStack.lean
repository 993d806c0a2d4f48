import Verif.Model.VStack
/-!
# What the instructions of a section do to the EVM stack

The EVM keeps one list of words (top first). Written without reference to the deferred stack.
-/

namespace Verif.Spec
variable {E : Type}

/-- The words an instruction leaves in place of its operands `args` (both top first). -/
def pushed (t : TInst E) (args : List Word) : List Word :=
  match t.lower with
  | .nop | .popIgnore | .branch .. => []
  | .dup n => args.getD (n - 1) 0 :: args
  | .exchange n m => (args.set n (args.getD (n + m) 0)).set (n + m) (args.getD n 0)
  | _ => (t.act args).1

/-- One instruction on the EVM stack. -/
def next (t : TInst E) (S : List Word) : List Word := pushed t (S.take t.inp) ++ S.drop t.inp

/-- Whether the instruction's own logic is compiled (it is neither skipped nor replaced by a known
result). -/
def compiled (t : TInst E) : Bool := !t.noop && !(decide (0 < t.out) && t.constOut.isSome)

/-- The observable events of an instruction on stack `S`, latest first. -/
def events (t : TInst E) (S : List Word) : List (Ev E) :=
  if compiled t then
    match t.lower with
    | .nop | .popIgnore | .fold _ | .dup _ | .exchange .. => []
    | .suspend => [.suspended (S.drop t.inp).reverse, .ran (t.act (S.take t.inp)).2]
    | .branch rt j rc => [.branched (if rt then S[0]? else none) (if j && rc then S[1]? else none)]
    | _ => [.ran (t.act (S.take t.inp)).2]
  else []

/-- An instruction's description is right for stack `S`: it has its operands, its way of lowering fits
its arity, and what the analyses claim to know about it is true. -/
structure Ok (t : TInst E) (S : List Word) : Prop where
  operands : t.inp ≤ S.length
  results : (pushed t (S.take t.inp)).length = t.out
  constIn : ∀ d c, d < t.inp → t.constIn d = some c → S[d]? = some c
  constOut : ∀ c, 0 < t.out → t.constOut = some c →
    (pushed t (S.take t.inp)).head? = some c ∧ t.lower ≠ .suspend ∧
      (t.out = 1 ∨ ∃ n, t.lower = .dup n)
  noop : t.noop = true → t.lower.leaves = false
  shape : match t.lower with
    | .nop => t.inp = 0
    | .popIgnore => True
    | .inline => True
    | .fold c => (t.act (S.take t.inp)).1 = [c]
    | .dup n => 1 ≤ n ∧ t.inp = n
    | .exchange n m => 1 ≤ m ∧ t.inp = n + m + 1
    | .builtin => True
    | .builtinTop => t.inp = 0
    | .loadConst => t.inp = 1 ∧ t.out = 1 ∧ (t.constIn 0).isSome
    | .keccakConst off len => t.inp = 2 ∧ t.out = 1 ∧ t.act (S.take 2) = t.act [off, len]
    | .expInline => t.inp = 2
    | .expFold c => t.inp = 2 ∧ (t.constIn 0).isSome ∧ (t.act (S.take 2)).1 = [c]
    | .suspend => t.out = 1
    | .branch _ j _ => t.inp = if j then 2 else 1

/-- A run of instructions on the EVM stack. -/
def run : List (TInst E) → List Word → List Word
  | [], S => S
  | t :: ts, S => run ts (next t S)

/-- The events of a run, latest first. -/
def runEvents : List (TInst E) → List Word → List (Ev E)
  | [], _ => []
  | t :: ts, S => runEvents ts (next t S) ++ events t S

/-- Every instruction of the run is `Ok` for the stack it meets. -/
def RunOk : List (TInst E) → List Word → Prop
  | [], _ => True
  | t :: ts, S => Ok t S ∧ RunOk ts (next t S)

/-- The stack buffer and the length variable hold exactly the stack `S`. -/
def Holds (cx : SCx E) (S : List Word) : Prop :=
  cx.lenVar = S.length ∧ ∀ (d : Nat) (w : Word), S[d]? = some w → cx.mem (S.length - 1 - d) = w

/-- The value the code generator would use for the stack word at offset `off` of the section. -/
def valueAt (cx : SCx E) (off : Int) : Word :=
  match cx.vs.getAtOffset off with
  | .virt v => v
  | .mat => cx.mem (cx.startLen + off)

end Verif.Spec
