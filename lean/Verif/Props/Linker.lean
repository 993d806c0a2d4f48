import Verif.Model.Linker
/-!
# Properties: the linker driver (C79)
-/

namespace Verif.Linker

/-- The last value given to a setting, if it was set at all. -/
def last (f : Op → Option (Option String)) (ops : List Op) : Option String :=
  ((ops.reverse.filterMap f).head?).getD none

/-- The C compiler that a call sets. -/
def ccOf : Op → Option (Option String)
  | .cc v => some v
  | _ => none

/-- The linker that a call sets. -/
def linkerOf : Op → Option (Option String)
  | .linker v => some v
  | _ => none

/-- The flags that a call gives. -/
def flagsOf : Op → List String
  | .cflags v => v
  | _ => []

theorem config_concat (ops : List Op) (o : Op) : config (ops ++ [o]) = (config ops).set o := by
  simp [config, List.foldl_append]

theorem last_concat (f : Op → Option (Option String)) (ops : List Op) (o : Op) :
    last f (ops ++ [o]) = (f o).getD (last f ops) := by
  simp only [last, List.reverse_append, List.reverse_cons, List.reverse_nil, List.nil_append, List.singleton_append,
    List.filterMap_cons]
  cases f o <;> rfl

theorem config_eq (ops : List Op) : config ops = ⟨last ccOf ops, last linkerOf ops, ops.flatMap flagsOf⟩ := by
  rw [← List.reverse_reverse ops]
  generalize ops.reverse = r
  induction r with
  | nil => rfl
  | cons o r ih =>
    rw [List.reverse_cons, config_concat, ih, last_concat, last_concat, List.flatMap_append]
    cases o <;> simp [Linker.set, ccOf, linkerOf, flagsOf]

/-- C79: the C compiler that is started is the one set last; without one, that of the environment; without that,
`cc`. -/
theorem C79_compiler (ops : List Op) (env : Option String) (apple : Bool) (out : String) (objects : List String) :
    (∀ cc, last ccOf ops = some cc → (command (config ops) env apple out objects).1 = cc) ∧
    (∀ cc, last ccOf ops = none → env = some cc → (command (config ops) env apple out objects).1 = cc) ∧
    (last ccOf ops = none → env = none → (command (config ops) env apple out objects).1 = "cc") := by
  rw [config_eq]
  refine ⟨fun cc h => ?_, fun cc h e => ?_, fun h e => ?_⟩ <;> simp [command, h, *]

/-- C79: the arguments end with all flags ever given, in order, and then the objects, in order; so a flag comes
after the default that it may override, and the output is named first. -/
theorem C79_arguments (ops : List Op) (env : Option String) (apple : Bool) (out : String) (objects : List String) :
    ∃ defaults, (command (config ops) env apple out objects).2 =
        "-o" :: out :: "-shared" :: defaults ++ ops.flatMap flagsOf ++ objects ∧
      (∀ ld, last linkerOf ops = some ld → "-fuse-ld=" ++ ld ∈ defaults) ∧
      (last linkerOf ops = none → ("-fuse-ld=lld" ∈ defaults ↔ apple = false)) := by
  rw [config_eq]
  cases h : last linkerOf ops with
  | some ld =>
    refine ⟨["-O3", "-fuse-ld=" ++ ld] ++
      if apple then ["-Wl,-dead_strip,-undefined,dynamic_lookup"] else ["-Wl,--gc-sections,--strip-debug"], ?_, ?_, ?_⟩
    · simp [command, h]
    · intro x hx; cases hx; simp
    · intro hx; cases hx
  | none =>
    refine ⟨["-O3"] ++ (if apple then [] else ["-fuse-ld=lld"]) ++
      if apple then ["-Wl,-dead_strip,-undefined,dynamic_lookup"] else ["-Wl,--gc-sections,--strip-debug"], ?_, ?_, ?_⟩
    · simp [command, h]
    · intro x hx; cases hx
    · intro _; cases apple <;> simp

/-- Settings for the examples. -/
def exOps : List Op := [.cc (some "gcc"), .cflags ["-g"], .cc (some "clang"), .linker (some "mold"), .cflags ["-O1"]]

/-- Set twice, with flags given twice; reset; and untouched. -/
example :
    command (config exOps) (some "tcc") false "a.so" ["a.o", "b.o"] =
      ("clang", ["-o", "a.so", "-shared", "-O3", "-fuse-ld=mold", "-Wl,--gc-sections,--strip-debug", "-g", "-O1",
        "a.o", "b.o"]) ∧
    last ccOf exOps = some "clang" ∧ last linkerOf exOps = some "mold" ∧
    (command (config (exOps ++ [.cc none])) (some "tcc") false "a.so" []).1 = "tcc" ∧
    command (config []) none true "a.so" ["a.o"] =
      ("cc", ["-o", "a.so", "-shared", "-O3", "-Wl,-dead_strip,-undefined,dynamic_lookup", "a.o"]) := by decide

/-- `cflags` is documented to set the flags (linker.rs:43) as the other setters do; the last call does not decide. -/
theorem C79_not_replaced :
    ¬ ∀ (ops : List Op) (v : List String), (config (ops ++ [.cflags v])).cflags = v := fun h =>
  absurd (h [.cflags ["-g"]] []) (by decide)

end Verif.Linker
