import Verif.Model.RunCmd
/-!
# Properties: libraries written and loaded by `revmc run` (C77)
-/

namespace Verif.RunCmd

theorem join_assoc_rel {p q r : Path} (hq : q.abs = false) (hr : r.abs = false) :
    (p.join q).join r = ⟨p.abs, p.comps ++ q.comps ++ r.comps⟩ := by
  simp [Path.join, hq, hr]

/-- Without an output directory the artifacts are in the default directory, dumping or not. -/
theorem aotDir_default (tmp : Path) (disk : Disk) (mod : String) (a : Args) (h : a.outDir = none) :
    (aotDir tmp disk mod a).1 = defaultAotDir tmp a := by
  simp only [aotDir, compilerOutDir, h]
  split
  · rename_i d hd
    split at hd
    · cases hd; rfl
    · cases hd
  · rfl

theorem run_written {tmp : Path} {disk : Disk} {suffix mod : String} {a : Args} {p : Path} {e : End}
    (h : run tmp disk suffix mod a = (some p, e)) :
    a.aot = true ∧ a.noLink = false ∧ p = library suffix (aotDir tmp disk mod a).1 ∧
      (a.load = some none → e = .runs (some p)) := by
  unfold run at h
  split at h
  · rename_i ha
    rcases hd : aotDir tmp disk mod a with ⟨dir, ok⟩
    rw [hd] at h
    cases ok
    · simp at h
    · cases hn : a.noLink
      · rcases hl : a.load with _ | _ | q <;> simp [hn, hl] at h <;> obtain ⟨rfl, rfl⟩ := h <;> simp [ha]
      · rcases hl : a.load with _ | _ | q <;> simp [hn, hl] at h
  · rcases hl : a.load with _ | _ | q <;> simp [hl] at h

/-- C77, in one run: `--aot --load` runs the very library it has written, whatever the other arguments. -/
theorem C77_same_run {tmp : Path} {disk : Disk} {suffix mod : String} {a : Args} {p : Path} {e : End}
    (h : run tmp disk suffix mod a = (some p, e)) (hl : a.load = some none) : e = .runs (some p) :=
  (run_written h).2.2.2 hl

/-- C77, in two runs, what holds: a library written by a run without `-o` is the one that a later run of the same
argument with `--load` and without `--aot` takes, whatever was displayed or drawn in either, even if the later
run has an output directory. Missing from the full claim: runs that write to a directory given by `-o`. -/
theorem C77_later_run_partial {tmp : Path} {disk disk' : Disk} {suffix mod mod' : String} {a b : Args} {p : Path}
    {e : End} (h : run tmp disk suffix mod a = (some p, e)) (ha : a.outDir = none) (hb : b.bench = a.bench)
    (hx : b.aot = false) (hl : b.load = some none) :
    run tmp disk' suffix mod' b = (none, .runs (some p)) := by
  obtain ⟨_, _, hp, _⟩ := run_written h
  rw [aotDir_default tmp disk mod a ha] at hp
  simp only [run, hx, hl, hp, defaultAotDir, hb]
  rfl

def exTmp : Path := ⟨true, ["tmp"]⟩
def exFresh : Disk := ⟨fun _ => false, fun _ => false⟩
def exArgs : Args := ⟨name "fib", none, false, true, true, false, none⟩

/-- A library is written and found: `run fib --aot --display`, then `run fib --load`. -/
example :
    run exTmp exFresh ".so" "fib" exArgs = (some ⟨true, ["tmp", "revmc-cli", "fib", "a.so"]⟩, .compiled) ∧
    run exTmp exFresh ".so" "fib" { exArgs with aot := false, display := false, load := some none } =
      (none, .runs (some ⟨true, ["tmp", "revmc-cli", "fib", "a.so"]⟩)) ∧
    run exTmp exFresh ".so" "fib" { exArgs with outDir := some (name "o"), load := some none } =
      (some ⟨false, ["o", "fib", "a.so"]⟩, .runs (some ⟨false, ["o", "fib", "a.so"]⟩)) := by decide

/-- C77 does not hold of the code: `run fib --aot -o o` followed by `run fib --load -o o` looks for the library
in the temporary directory. -/
theorem C77_later_run_fails :
    ¬ ∀ (tmp : Path) (disk : Disk) (suffix mod : String) (a : Args) (p : Path) (e : End),
      run tmp disk suffix mod a = (some p, e) →
      (run tmp disk suffix mod { a with aot := false, load := some none }).2 = .runs (some p) := by
  intro h
  have := h exTmp exFresh ".so" "fib" { exArgs with outDir := some (name "o") } ⟨false, ["o", "fib", "a.so"]⟩
    .compiled (by decide)
  revert this
  decide

/-- C77: runs of different relative arguments, without `-o`, write different libraries, all below the same
directory. -/
theorem C77_apart {tmp : Path} {disk disk' : Disk} {suffix mod mod' : String} {a b : Args} {p q : Path} {e f : End}
    (h : run tmp disk suffix mod a = (some p, e)) (g : run tmp disk' suffix mod' b = (some q, f))
    (ha : a.outDir = none) (hb : b.outDir = none) (ra : a.bench.abs = false) (rb : b.bench.abs = false)
    (hne : a.bench ≠ b.bench) :
    p ≠ q ∧ tmp.comps ++ ["revmc-cli"] <+: p.comps := by
  obtain ⟨_, _, hp, _⟩ := run_written h
  obtain ⟨_, _, hq, _⟩ := run_written g
  rw [aotDir_default _ _ _ _ ha, defaultAotDir, library, join_assoc_rel rfl ra] at hp
  rw [aotDir_default _ _ _ _ hb, defaultAotDir, library, join_assoc_rel rfl rb] at hq
  simp only [Path.join, name, Bool.false_eq_true, if_false] at hp hq
  subst hp; subst hq
  refine ⟨fun he => hne ?_, ?_⟩
  · have := (Path.mk.inj he).2
    have h1 := List.append_cancel_right this
    have h2 := List.append_cancel_left h1
    rcases hA : a.bench with ⟨x, xs⟩
    rcases hB : b.bench with ⟨y, ys⟩
    rw [hA] at h2 ra; rw [hB] at h2 rb
    simp only at h2 ra rb
    rw [ra, rb, h2]
  · simp only [List.append_assoc]
    exact ⟨a.bench.comps ++ ["a" ++ suffix], by simp⟩

example : (run exTmp exFresh ".so" "x" { exArgs with bench := ⟨false, ["d", "x.bin"]⟩, display := false }).1 ≠
    (run exTmp exFresh ".so" "x" { exArgs with bench := ⟨false, ["d", "x.hex"]⟩, display := false }).1 := by decide

/-- C77, what holds about writing: for a benchmark of the catalogue, whose name is also the module's, the
directory is there, whatever the arguments, unless a file of that name is. Missing from the full claim: files and
inline code. -/
theorem C77_writes_partial (tmp : Path) (disk : Disk) (suffix mod : String) (a : Args) (hm : a.bench = name mod)
    (hf : ∀ p, disk.file p = false) : (run tmp disk suffix mod a).2 ≠ .writeError := by
  have hok : (aotDir tmp disk mod a).2 = true := by
    unfold aotDir
    split
    · simp [hm, above]
    · simp [hf]
  unfold run
  split
  · rcases hd : aotDir tmp disk mod a with ⟨dir, ok⟩
    rw [hd] at hok
    simp only at hok
    subst hok
    rcases hl : a.load with _ | _ | q <;> simp
  · rcases hl : a.load with _ | _ | q <;> simp

/-- Writing fails for inline code with an output directory: the dump directory is named `custom`, and the
directory named after the code is not created. -/
theorem C77_inline_fails :
    run exTmp exFresh ".so" "custom" { exArgs with bench := name "0x6000", outDir := some (name "o") } =
      (none, .writeError) := by decide

/-- Writing fails for every file given by an absolute path, without output directory and dumping: the default
directory is the file itself. -/
theorem C77_absolute_fails (tmp : Path) (disk : Disk) (suffix mod : String) (a : Args) (ha : a.aot = true)
    (ho : a.outDir = none) (hd : a.dot = false) (hs : a.display = false) (hb : a.bench.abs = true)
    (hf : disk.file a.bench = true) : run tmp disk suffix mod a = (none, .writeError) := by
  simp [run, ha, aotDir, compilerOutDir, ho, hd, hs, defaultAotDir, Path.join, hb, hf]

example : run exTmp ⟨fun _ => false, fun p => p = ⟨true, ["c.bin"]⟩⟩ ".so" "c"
    { exArgs with bench := ⟨true, ["c.bin"]⟩, display := false } = (none, .writeError) := by decide

end Verif.RunCmd
