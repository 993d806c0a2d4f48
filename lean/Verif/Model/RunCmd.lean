/-!
# Where `revmc run` puts compiled libraries and where it looks for them

crates/revmc-cli/src/cmd/run.rs:99-246 and `shared_library_path` (crates/revmc-codegen/src/linker.rs:7-11).
-/

namespace Verif.RunCmd

/-- A path: absolute or not, and its components. Simplification: `.` and `..` are components like any other. -/
structure Path where
  abs : Bool
  comps : List String
deriving DecidableEq, Repr

/-- `Path::join` of the standard library: an absolute path replaces what it is joined to. -/
def Path.join (p q : Path) : Path := if q.abs then q else ⟨p.abs, p.comps ++ q.comps⟩

/-- A relative path of one component. -/
def name (s : String) : Path := ⟨false, [s]⟩

/-- The arguments that matter here (run.rs:18-73). `bench` is the first argument read as a path; `load` without a
path is `some none`. -/
structure Args where
  bench : Path
  outDir : Option Path
  dot : Bool
  display : Bool
  aot : Bool
  noLink : Bool
  load : Option (Option Path)
deriving DecidableEq, Repr

/-- What is on disk before: `dir` tells directories, `file` other files. -/
structure Disk where
  dir : Path → Bool
  file : Path → Bool

/-- `default_aot_dir` (run.rs:151). -/
def defaultAotDir (tmp : Path) (a : Args) : Path := (tmp.join (name "revmc-cli")).join a.bench

/-- The directory given to `set_dump_to` (run.rs:162-169), without `--parse-only`, which ends before anything is
written. -/
def compilerOutDir (tmp : Path) (a : Args) : Option Path :=
  match a.outDir with
  | some d => some d
  | none => if a.dot || a.display then some (tmp.join (name "revmc-cli")) else none

/-- `p` is `d` or above it: `create_dir_all d` leaves it as a directory. -/
def above (p d : Path) : Bool := p.abs == d.abs && p.comps.isPrefixOf d.comps

/-- The directory of the artifacts of `--aot` (run.rs:202-208) and whether it exists when the object is written:
below the compiler's directory nothing but the dump directory is created (`dump_dir`, compiler/mod.rs:951-960,
called at run.rs:176; `mod` is the module's name with blanks replaced), otherwise `create_dir_all` makes it and
fails on a file. Simplification: only a file at the very path is considered, and the directories are writable. -/
def aotDir (tmp : Path) (disk : Disk) (mod : String) (a : Args) : Path × Bool :=
  match compilerOutDir tmp a with
  | some d => (d.join a.bench, disk.dir (d.join a.bench) || above (d.join a.bench) (d.join (name mod)))
  | none => (defaultAotDir tmp a, !disk.file (defaultAotDir tmp a))

/-- `shared_library_path(dir, "a")` (linker.rs:7-11), `suffix` being that of the platform. -/
def library (suffix : String) (dir : Path) : Path := dir.join (name ("a" ++ suffix))

/-- How far a run gets: an error while writing, an end after `--aot`, or a run with the library from a path or
with code compiled in memory. -/
inductive End
  | writeError
  | compiled
  | runs (lib : Option Path)
deriving DecidableEq, Repr

/-- `RunArgs::run` from the compilation on (run.rs:201-246): the library that is written, if any, and the end.
Compiling and linking are taken to succeed. -/
def run (tmp : Path) (disk : Disk) (suffix mod : String) (a : Args) : Option Path × End :=
  if a.aot then
    let (dir, ok) := aotDir tmp disk mod a
    if ok then
      let written := if a.noLink then none else some (library suffix dir)
      match a.load with
      | none => (written, .compiled)
      | some (some p) => (written, .runs (some p))
      | some none => (written, .runs (some (library suffix dir)))
    else (none, .writeError)
  else
    match a.load with
    | none => (none, .runs none)
    | some (some p) => (none, .runs (some p))
    | some none => (none, .runs (some (library suffix (defaultAotDir tmp a))))

end Verif.RunCmd
