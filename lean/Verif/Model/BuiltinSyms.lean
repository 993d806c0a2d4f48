import Verif.Model.AMap
/-!
# Model: builtin symbols shared by all compilers of a process

`GlobalOrcJit::define_builtins` of `crates/revmc-llvm/src/lib.rs` with its two callers, as threads whose
steps interleave. The lock is held for one step (`begin`), the call of LLVM that defines the symbols is
another one (`define`), and the lookup that links the code is a third (`link`).
-/

namespace Verif.BuiltinSyms

/-- A symbol name. Mangling (lib.rs:329) is injective and left out. -/
abbrev Sym := Nat

/-- A job of one thread: the symbols handed to `define_builtins` (lib.rs:722 from `pending_symbols`, lib.rs:463
from the caller) and the names the code refers to and does not define itself. -/
structure Job where
  symbols : List (Sym × Nat)
  uses : List Sym
deriving DecidableEq, Repr

/-- Where a thread is: after the lock was released with `fresh` still to define, or after
`define_builtins`. -/
inductive Phase
  | inserted (fresh : List (Sym × Nat)) (job : Job)
  | ready (job : Job)
deriving DecidableEq, Repr

/-- `GlobalOrcJit` (lib.rs:210-224) as far as builtins go: `builtins_defined`, the symbol table of
`builtins_jd`, how often LLVM refused a definition (the `error!` of lib.rs:342), the threads, and the
outcome of every link so far, latest first. -/
structure Proc where
  defined : List Sym
  table : AMap Sym Nat
  refused : Nat
  threads : AMap Nat Phase
  links : List (Job × Option (List Nat))
deriving DecidableEq, Repr

/-- `GlobalOrcJit::get` (lib.rs:235-288): an empty dylib and an empty set. -/
def init : Proc := ⟨[], [], 0, [], []⟩

/-- `symbols.iter().filter(|(name, _)| defined.insert(name.clone()))` (lib.rs:324-326): the set afterwards and
the symbols that were new to it. -/
def insertAll (defined : List Sym) : List (Sym × Nat) → List Sym × List (Sym × Nat)
  | [] => (defined, [])
  | (n, a) :: rest =>
    if n ∈ defined then insertAll defined rest
    else ((insertAll (n :: defined) rest).1, (n, a) :: (insertAll (n :: defined) rest).2)

/-- `LLVMOrcJITDylibDefine` of absolute symbols (orc.rs:985-992): all of them, or an error and none if one is
there already or given twice. -/
def defineAll (table : AMap Sym Nat) (fresh : List (Sym × Nat)) : Option (AMap Sym Nat) :=
  if (∀ p ∈ fresh, table.get p.1 = none) ∧ (fresh.map (·.1)).Nodup then some (fresh ++ table) else none

/-- What code linked now binds a name to: the process's own exported symbols, through the generator attached
to the code's dylib (lib.rs:298-303), then the builtins (lib.rs:297). -/
def bind (exported : Sym → Option Nat) (table : AMap Sym Nat) (n : Sym) : Option Nat :=
  match exported n with
  | some a => some a
  | none => table.get n

/-- All names, or an error (`lookup_in`, lib.rs:466 and 1060). -/
def bindAll (exported : Sym → Option Nat) (table : AMap Sym Nat) : List Sym → Option (List Nat)
  | [] => some []
  | n :: rest =>
    match bind exported table n, bindAll exported table rest with
    | some a, some as => some (a :: as)
    | _, _ => none

/-- A step of thread `t`. -/
inductive Op
  | begin (t : Nat) (job : Job)
  | define (t : Nat)
  | link (t : Nat)
deriving DecidableEq, Repr

/-- `define_builtins` (lib.rs:319-344) and the lookup after it (lib.rs:466, 1060). A step for which the
thread is not ready does nothing. -/
def step (exported : Sym → Option Nat) (s : Proc) : Op → Proc
  | .begin t job =>
    match s.threads.get t with
    | some _ => s
    | none =>
      if job.symbols = [] then { s with threads := s.threads.insert t (.ready job) }
      else
        { s with
          defined := (insertAll s.defined job.symbols).1
          threads := s.threads.insert t (.inserted (insertAll s.defined job.symbols).2 job) }
  | .define t =>
    match s.threads.get t with
    | some (.inserted fresh job) =>
      if fresh = [] then { s with threads := s.threads.insert t (.ready job) }
      else
        match defineAll s.table fresh with
        | some table => { s with table, threads := s.threads.insert t (.ready job) }
        | none => { s with refused := s.refused + 1, threads := s.threads.insert t (.ready job) }
    | _ => s
  | .link t =>
    match s.threads.get t with
    | some (.ready job) =>
      { s with
        threads := s.threads.erase t
        links := (job, bindAll exported s.table job.uses) :: s.links }
    | _ => s

/-- A run. -/
def run (exported : Sym → Option Nat) (s : Proc) : List Op → Proc
  | [] => s
  | op :: ops => run exported (step exported s op) ops

end Verif.BuiltinSyms
