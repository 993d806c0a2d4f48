import Verif.Model.AMap
/-!
# A compiler session

Models `EvmCompiler` (`crates/revmc-codegen/src/compiler/mod.rs`) driving `EvmLlvmBackend`
(`crates/revmc-llvm/src/lib.rs`) on top of the process-wide LLVM JIT: which functions are in the
module, which are loaded, what a function id stands for and what code a pointer leads to.

External, as documented by LLVM: a JIT dylib maps names to code; adding a module fails, and destroys
the module, if one of its names is already defined in the dylib; removing a resource tracker unloads
what was added with it; clearing or removing a dylib unloads everything in it.

Simplifications: the code of a function is opaque; an address stands for one allocation and is never
given out twice; a name that is not defined in the dylib is not found (the process's own symbols are
left out); names are not names of builtins; all builtins are cached together; writing files, dumps,
debug info and timings are left out. `Sym.gen` and `Comp.clears` are bookkeeping for the
specification and influence nothing else.
-/

namespace Verif.Session

/-- Symbol name. -/
abbrev Name := List Char

/-- What a function was translated from (bytecode, fork and settings); opaque. -/
abbrev Code := Nat

/-- A symbol defined in a dylib: the tracker that owns it, its address, the code behind it, and the
number of clears of the compiler before it was loaded (bookkeeping). -/
structure Sym where
  dylib : Nat
  name : Name
  tracker : Nat
  addr : Nat
  code : Code
  gen : Nat
deriving DecidableEq, Repr

/-- `GlobalOrcJit` (lib.rs:210-224): the loaded symbols and the counters handing out dylibs (291-305),
trackers and addresses. -/
structure Jit where
  nextDylib : Nat
  nextTracker : Nat
  nextAddr : Nat
  syms : List Sym
deriving DecidableEq, Repr

namespace Jit

/-- Is `n` defined in dylib `d`? (LLVM, external) -/
def defined (j : Jit) (d : Nat) (n : Name) : Bool := j.syms.any fun s => s.dylib == d && s.name == n

/-- The symbols of a new module, placed one after another from address `a`. -/
def place (d t g : Nat) : Nat → List (Name × Code) → List Sym
  | _, [] => []
  | a, f :: r => ⟨d, f.1, t, a, f.2, g⟩ :: place d t g (a + 1) r

/-- `add_module_with_rt` (orc.rs:1393-1402; LLVM, external): `none` on a duplicate definition. -/
def add (j : Jit) (d t g : Nat) (fs : List (Name × Code)) : Option Jit :=
  if fs.any fun f => j.defined d f.1 then none
  else some { j with nextAddr := j.nextAddr + fs.length, syms := j.syms ++ place d t g j.nextAddr fs }

/-- `lookup_in` (orc.rs:1457-1468; LLVM, external). -/
def lookup (j : Jit) (d : Nat) (n : Name) : Option Nat :=
  (j.syms.find? fun s => s.dylib == d && s.name == n).map (·.addr)

/-- `ResourceTracker::remove` (orc.rs:810-812; LLVM, external). -/
def removeTracker (j : Jit) (t : Nat) : Jit := { j with syms := j.syms.filter fun s => s.tracker != t }

/-- `JITDylib::clear` (orc.rs:1004-1006) and `remove_jit_dylib` (lib.rs:308-315; LLVM, external). -/
def clearDylib (j : Jit) (d : Nat) : Jit := { j with syms := j.syms.filter fun s => s.dylib != d }

/-- The code at an address, if it is loaded. -/
def codeAt (j : Jit) (a : Nat) : Option Code := (j.syms.find? fun s => s.addr == a).map (·.code)

end Jit

/-- `FunctionValue`: the module the function is in and its name. -/
structure FnRef where
  module : Nat
  name : Name
deriving DecidableEq, Repr

/-- `OrcJitState` (lib.rs:372-396): the dylib, `staged_functions`, `committed_functions` and
`loaded_trackers`. -/
structure Orc where
  dylib : Nat
  staged : AMap Nat FnRef
  committed : AMap Nat Nat
  trackers : List Nat
deriving DecidableEq, Repr

/-- `EvmCompiler` (compiler/mod.rs:85-111) with its `EvmLlvmBackend` (lib.rs:131-167). `module` numbers
the modules created so far, `funcs` are the functions of the current one, `builtins` is the module the
cached builtin declarations are in. -/
structure Comp where
  aot : Bool
  finalized : Bool
  module : Nat
  funcs : List (Name × Code)
  builtins : Option Nat
  counter : Nat
  names : AMap Nat Name
  orc : Option Orc
  clears : Nat
deriving DecidableEq, Repr

/-- `EvmCompiler::new` (compiler/mod.rs:123-141) on `EvmLlvmBackend::new` (lib.rs:522-600). -/
def Comp.new (aot : Bool) : Comp :=
  { aot, finalized := false, module := 0, funcs := [], builtins := none, counter := 0, names := [],
    orc := none, clears := 0 }

/-- What a call returns. `panic`: it panics; `dangling`: it uses a function of a module that is gone. -/
inductive Res
  | done
  | id (n : Nat)
  | addr (a : Nat)
  | object (fs : List (Name × Code))
  | tracker (t : Option Nat)
  | err
  | panic
  | dangling
deriving DecidableEq, Repr

/-- `ensure_orc` (lib.rs:613-622) with `OrcJitState::new` (410-424) and `create_jit_dylib` (291-305). -/
def ensureOrc (j : Jit) (c : Comp) : Jit × Comp :=
  match c.orc with
  | some _ => (j, c)
  | none => ({ j with nextDylib := j.nextDylib + 1 },
      { c with orc := some { dylib := j.nextDylib, staged := [], committed := [], trackers := [] } })

/-- `EvmCompiler::translate` (compiler/mod.rs:448-457) with `translate_inner` (584-603) and
`build_function` (lib.rs:925-995). `parsed`: the bytecode parses and analyses; `uses`: the code calls a
builtin (`Builtins::get`, revmc-builtins/src/ir.rs:32-34). The branch of `build_function` that reuses a
staged function needs a name already in the module, which is rejected before. -/
def translate (j : Jit) (c : Comp) (n : Name) (code : Code) (parsed uses : Bool) : Jit × Comp × Res :=
  if c.finalized then (j, c, .err)
  else if !parsed then (j, c, .err)
  else if c.funcs.any fun f => f.1 == n then (j, c, .err)
  else
    let (j, c) := if c.aot then (j, c) else ensureOrc j c
    let id := c.counter
    let c := { c with
      funcs := c.funcs ++ [(n, code)]
      counter := id + 1
      names := c.names.insert id n
      orc := c.orc.map fun o => { o with staged := o.staged.insert id ⟨c.module, n⟩ } }
    if uses then
      match c.builtins with
      | some m => if m = c.module then (j, c, .id id) else (j, c, .dangling)
      | none => (j, { c with builtins := some c.module }, .id id)
    else (j, c, .id id)

/-- `finalize` (compiler/mod.rs:606-660); `opt`: verification and optimisation succeed. -/
def finalize (c : Comp) (opt : Bool) : Comp × Bool :=
  if c.finalized then (c, true) else if opt then ({ c with finalized := true }, true) else (c, false)

/-- `commit_staged_module` (lib.rs:706-738). When adding the module fails, the module is already
replaced and the staged functions are kept. -/
def commit (j : Jit) (c : Comp) : Jit × Comp × Bool :=
  match c.orc with
  | none => (j, c, true)
  | some o =>
    if c.aot || o.staged.isEmpty then (j, c, true)
    else
      let t := j.nextTracker
      let j := { j with nextTracker := t + 1 }
      let fs := c.funcs
      let c := { c with module := c.module + 1, funcs := [] }
      match j.add o.dylib t c.clears fs with
      | none => (j, c, false)
      | some j =>
        (j, { c with orc := some { o with
          committed := o.staged.keys.foldl (fun m id => m.insert id o.trackers.length) o.committed
          trackers := o.trackers ++ [t]
          staged := [] } }, true)

/-- `EvmCompiler::jit_function` (compiler/mod.rs:483-498) with the backend's (lib.rs:1049-1066).
`opt`: verification and optimisation succeed; `link`: code generation and linking succeed. -/
def jitFunction (j : Jit) (c : Comp) (id : Nat) (opt link : Bool) : Jit × Comp × Res :=
  if c.aot then (j, c, .err)
  else
    let (c, ok) := finalize c opt
    if !ok then (j, c, .err)
    else
      let (j, c) := ensureOrc j c
      let (j, c, ok) := commit j c
      if !ok then (j, c, .err)
      else
        match c.names.get id with
        | none => (j, c, .panic)
        | some n =>
          match c.orc with
          | none => (j, c, .panic)
          | some o =>
            if !link then (j, c, .err)
            else
              match j.lookup o.dylib n with
              | none => (j, c, .err)
              | some a => (j, c, .addr a)

/-- `EvmCompiler::write_object` (compiler/mod.rs:510-521, lib.rs:1040-1047). -/
def writeObject (c : Comp) (opt : Bool) : Comp × Res :=
  let (c, ok) := finalize c opt
  if ok then (c, .object c.funcs) else (c, .err)

/-- `free_function` (compiler/mod.rs:529-532, lib.rs:1102-1128). -/
def freeFunction (j : Jit) (c : Comp) (id : Nat) : Jit × Comp × Res :=
  match c.orc with
  | none => (j, { c with names := c.names.erase id }, .done)
  | some o =>
    let del : Option (List (Name × Code)) :=
      match o.staged.get id with
      | none => some c.funcs
      | some f => if f.module = c.module then some (c.funcs.filter fun p => p.1 != f.name) else none
    match del with
    | none => (j, c, .dangling)
    | some funcs =>
      let staged := o.staged.erase id
      match o.committed.get id with
      | none =>
        (j, { c with funcs, orc := some { o with staged }, names := c.names.erase id }, .done)
      | some i =>
        match o.trackers[i]? with
        | none => (j, c, .panic)
        | some t =>
          let rest := o.committed.erase id
          (j.removeTracker t,
            { c with
              funcs
              orc := some { o with staged, committed := rest.filter fun p => p.2 != i }
              names := AMap.erase (c.names.filter fun p => rest.get p.1 != some i) id }, .done)

/-- `clear_ir` (compiler/mod.rs:538-544, lib.rs:1090-1100). -/
def clearIr (c : Comp) : Comp :=
  { c with
    builtins := none, finalized := false, names := [], module := c.module + 1, funcs := []
    orc := c.orc.map fun o => { o with staged := [] }
    clears := c.clears + 1 }

/-- `clear` (compiler/mod.rs:554-560) with `reset_jit` (lib.rs:742-753) and `OrcJitState::clear`
(427-438). -/
def clear (j : Jit) (c : Comp) : Jit × Comp :=
  let j := match c.orc with
    | none => j
    | some o => j.clearDylib o.dylib
  (j, { c with
    builtins := none, finalized := false, names := [], module := c.module + 1, funcs := []
    orc := c.orc.map fun o => { o with staged := [], committed := [], trackers := [] }
    clears := c.clears + 1 })

/-- `take_last_resource_tracker` (lib.rs:804-810). -/
def takeTracker (c : Comp) : Comp × Option Nat :=
  match c.orc with
  | none => (c, none)
  | some o =>
    match o.trackers.getLast? with
    | none => (c, none)
    | some t =>
      ({ c with orc := some { o with
        trackers := o.trackers.dropLast
        committed := o.committed.filter fun p => p.2 != o.trackers.length - 1 } }, some t)

/-- A call on the compiler. -/
inductive Op
  | translate (n : Name) (code : Code) (parsed uses : Bool)
  | jitFunction (id : Nat) (opt link : Bool)
  | writeObject (opt : Bool)
  | freeFunction (id : Nat)
  | clearIr
  | clear
  | takeTracker
deriving DecidableEq, Repr

/-- One call. -/
def exec (j : Jit) (c : Comp) : Op → Jit × Comp × Res
  | .translate n code parsed uses => translate j c n code parsed uses
  | .jitFunction id opt link => jitFunction j c id opt link
  | .writeObject opt => (j, (writeObject c opt).1, (writeObject c opt).2)
  | .freeFunction id => freeFunction j c id
  | .clearIr => (j, clearIr c, .done)
  | .clear => ((clear j c).1, (clear j c).2, .done)
  | .takeTracker => (j, (takeTracker c).1, .tracker (takeTracker c).2)

end Verif.Session
