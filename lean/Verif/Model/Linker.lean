/-!
# The linker driver

crates/revmc-codegen/src/linker.rs:13-94. Paths and arguments are strings; `display` of a path is the path.
-/

namespace Verif.Linker

/-- `Linker` (linker.rs:13-19). -/
structure Linker where
  cc : Option String
  linker : Option String
  cflags : List String
deriving DecidableEq, Repr

/-- `Linker::new` (linker.rs:29-31). -/
def Linker.new : Linker := ⟨none, none, []⟩

/-- The setters (linker.rs:33-46). -/
inductive Op
  | cc (v : Option String)
  | linker (v : Option String)
  | cflags (v : List String)
deriving DecidableEq, Repr

/-- One setter (linker.rs:33-46): flags are added to those that are there. -/
def Linker.set (l : Linker) : Op → Linker
  | .cc v => { l with cc := v }
  | .linker v => { l with linker := v }
  | .cflags v => { l with cflags := l.cflags ++ v }

/-- A configured linker. -/
def config (ops : List Op) : Linker := ops.foldl Linker.set .new

/-- The program and its arguments (linker.rs:55-85); `env` is the variable `CC`, `apple` the platform. -/
def command (l : Linker) (env : Option String) (apple : Bool) (out : String) (objects : List String) :
    String × List String :=
  let cc := match l.cc with
    | some cc => cc
    | none => match env with
      | some cc => cc
      | none => "cc"
  let ld := match l.linker with
    | some p => ["-fuse-ld=" ++ p]
    | none => if apple then [] else ["-fuse-ld=lld"]
  let wl := if apple then ["-Wl,-dead_strip,-undefined,dynamic_lookup"] else ["-Wl,--gc-sections,--strip-debug"]
  (cc, ["-o", out] ++ ["-shared"] ++ ["-O3"] ++ ld ++ wl ++ l.cflags ++ objects)

end Verif.Linker
