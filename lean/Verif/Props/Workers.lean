import Verif.Lemmas.WorkersInv
/-!
# C62: compiled programs stay callable for as long as somebody holds them

After any sequence of compile jobs on any workers, objects linked from the helper process, compilers
recycled, programs dropped and workers stopped.
-/

namespace Verif.Workers
open Verif.Session

/-- **A held program runs its contract**: its pointer leads to the code of the job that made it, whatever
was compiled, recycled, dropped or stopped since. -/
theorem C62_held {limit : Nat} {j0 : Jit} (ok : j0.Ok) {r : Hist} {p : Pool} (hr : Run limit j0 r p)
    {h a : Nat} {n : Name} {code : Code} (hh : Held r h a n code) : p.jit.codeAt a = some code := by
  have v := hr.inv ok
  obtain ⟨x, _, _, s, h1, h2, _, h4, _⟩ := v.held h a n code hh
  rw [← h2, ← h4]
  exact codeAt_of v.jit h1

/-- **No two programs share code**: different held programs have different pointers. -/
theorem C62_distinct {limit : Nat} {j0 : Jit} (ok : j0.Ok) {r : Hist} {p : Pool} (hr : Run limit j0 r p)
    {h h' a : Nat} {n n' : Name} {code code' : Code} (hh : Held r h a n code) (hh' : Held r h' a n' code') : h = h' := by
  have v := hr.inv ok
  obtain ⟨x, k1, _, s, h1, h2, _, _, h5, _⟩ := v.held h a n code hh
  obtain ⟨x', k1', _, s', h1', h2', _, _, h5', _⟩ := v.held h' a n' code' hh'
  have := eq_of_addr v.jit h1 h1' (h2.trans h2'.symm)
  subst this
  exact v.hApart h x h' x' k1 k1' (h5.symm.trans h5')

/-- **Nobody else's code is touched.** -/
theorem C62_others {limit : Nat} {j0 : Jit} (ok : j0.Ok) {r : Hist} {p : Pool} (hr : Run limit j0 r p)
    {a : Nat} {code : Code} (hl : j0.codeAt a = some code) : p.jit.codeAt a = some code := by
  have v := hr.inv ok
  obtain ⟨s, hs, h1, h2⟩ := codeAt_some hl
  rw [← h1, ← h2]
  exact codeAt_of v.jit (v.old s hs)

/-- **No job panics**, which would take the process down. -/
theorem C62_panics {limit : Nat} {j0 : Jit} (ok : j0.Ok) {r : Hist} {p p' : Pool} {e : Ev} {x : Ret}
    (hr : Run limit j0 r p) (he : step limit p e = (p', x)) : x ≠ .panic := ((hr.inv ok).step ok he).2

/-- **Memory is reclaimed program by program**: as long as LLVM never failed after adding a module, what is
loaded is what is held (and what others had loaded). -/
theorem C62_reclaimed_partial {limit : Nat} {j0 : Jit} (ok : j0.Ok) {r : Hist} {p : Pool} (hr : Run limit j0 r p)
    (hl : Linked r) {a : Nat} {code : Code} (hc : p.jit.codeAt a = some code) :
    j0.codeAt a = some code ∨ ∃ h n, Held r h a n code := by
  have v := hr.inv ok
  obtain ⟨s, hs, h1, h2⟩ := codeAt_some hc
  rcases v.clean hl s hs with h3 | ⟨h, x, h3, h4⟩
  · left
    rw [← h1, ← h2]
    exact codeAt_of ok h3
  · right
    obtain ⟨n, code', k⟩ := v.back h x h3
    obtain ⟨_, _, _, s2, k1, k2, _, k4, _⟩ := v.held _ _ _ _ k
    have := eq_of_addr v.jit hs k1 (h4.trans k2.symm)
    subst this
    refine ⟨h, n, ?_⟩
    rw [← h2, k4, ← h1, h4]
    exact k

/-- **Everything is reclaimed in the end**, failures or not: with no worker running and no program held,
nothing is loaded that was not before. -/
theorem C62_reclaimed_all {limit : Nat} {j0 : Jit} (ok : j0.Ok) {r : Hist} {p : Pool} (hr : Run limit j0 r p)
    (hw : p.workers = []) (hh : ∀ h a n code, ¬ Held r h a n code) (a : Nat) : p.jit.codeAt a = j0.codeAt a := by
  have v := hr.inv ok
  have hs : ∀ s ∈ p.jit.syms, s ∈ j0.syms := by
    intro s hs
    rcases v.owned s hs with h1 | ⟨_, (⟨w, s2, o, h2, _⟩ | ⟨h, x, h2, _⟩) | h1⟩
    · exact h1
    · rw [hw] at h2; cases h2
    · obtain ⟨n, code, k⟩ := v.back h x h2
      exact absurd k (hh _ _ _ _)
    · exact h1.elim
  cases h1 : j0.codeAt a with
  | some code => exact C62_others ok hr h1
  | none =>
    cases h2 : p.jit.codeAt a with
    | none => rfl
    | some code =>
      obtain ⟨s, k1, k2, k3⟩ := codeAt_some h2
      have := codeAt_of ok (hs s k1)
      rw [k2, h1] at this
      cases this

/-- **Linking an object from the helper always works**, whatever names are loaded. -/
theorem C62_links {limit : Nat} {j0 : Jit} (ok : j0.Ok) {r : Hist} {p : Pool} (hr : Run limit j0 r p)
    (n : Name) (code : Code) : ∃ p' h a, step limit p (.linkObject n code true) = (p', .handle h a) := by
  have v := hr.inv ok
  have hnd : Jit.defined { p.jit with nextDylib := p.jit.nextDylib + 1, nextTracker := p.jit.nextTracker + 1 }
      p.jit.nextDylib n = false :=
    defined_false fun s hs hd => by have := v.jit.dylib s hs; omega
  have hlk := lookup_last hnd (s := ⟨p.jit.nextDylib, n, p.jit.nextTracker, p.jit.nextAddr, code, 0⟩) rfl rfl
    (p.jit.nextAddr + 1) (p.jit.nextTracker + 1) (p.jit.nextDylib + 1)
  have hadd : Jit.add { p.jit with nextDylib := p.jit.nextDylib + 1, nextTracker := p.jit.nextTracker + 1 }
      p.jit.nextDylib p.jit.nextTracker 0 [(n, code)] =
      some ⟨p.jit.nextDylib + 1, p.jit.nextTracker + 1, p.jit.nextAddr + 1,
        p.jit.syms ++ [⟨p.jit.nextDylib, n, p.jit.nextTracker, p.jit.nextAddr, code, 0⟩]⟩ := by
    simp [Jit.add, hnd, Jit.place]
  simp only at hlk
  rw [Workers.step, linkObject]
  simp only [hadd, hlk]
  exact ⟨_, _, _, rfl⟩

/-- **A job compiles** when LLVM does what it is asked, the bytecode parses and no program of the same name
is held. Missing: recompiling a contract while an evicted program of it is still held, and compiling it
after LLVM failed once on the same worker; both fail (`C62_compiles_fails`, `C62_retries_fails`). -/
theorem C62_compiles_partial {limit : Nat} {j0 : Jit} (ok : j0.Ok) {r : Hist} {p : Pool} (hr : Run limit j0 r p)
    (hl : Linked r) {n : Name} (hh : ∀ h a code, ¬ Held r h a n code) (w : Nat) (code : Code) (uses recreated : Bool) :
    ∃ p' h a, step limit p (.job w n code true uses true true true recreated) = (p', .handle h a) := by
  have v := hr.inv ok
  have hst : ∃ s, stateOf p w true = some s ∧
      (p.workers.get w = some s ∨ (p.workers.get w = none ∧ s.comp = Comp.new false)) := by
    rw [stateOf]
    cases hg : p.workers.get w with
    | some s => exact ⟨s, rfl, .inl rfl⟩
    | none => exact ⟨_, rfl, .inr ⟨rfl, rfl⟩⟩
  obtain ⟨s, hs, hw⟩ := hst
  have hi : Idle s.comp := by
    rcases hw with hw | ⟨_, hw⟩
    · exact v.idle w s hw
    · rw [hw]; exact idle_new
  rcases compile_cases hi p.jit n code true uses true true with ⟨h1, _⟩ |
      ⟨o, j1, j2, c2, out2, _, ho, h1, ha, o', ho', hd, h2⟩
  · cases h1
  · have hbase : j0.nextDylib ≤ o.dylib := by
      rcases ho with ⟨h3, _⟩ | ⟨_, h3, _⟩
      · rcases hw with hw | ⟨_, hw⟩
        · exact (v.wDylib w s o hw h3).1
        · rw [hw] at h3; cases h3
      · rw [h3]; exact v.dylibs
    have hsy : j1.syms = p.jit.syms := by
      rcases ho with ⟨_, rfl⟩ | ⟨_, _, rfl⟩ <;> rfl
    rcases h2 with ⟨h3, _⟩ | ⟨_, h3, _⟩ | ⟨_, _, _, ⟨h3, _⟩ | ⟨_, _, h4⟩⟩
    · cases h3
    · obtain ⟨x, k1, k2, k3⟩ := of_defined h3
      rw [hsy] at k1
      rcases v.clean hl x k1 with k4 | ⟨h, y, k4, k5⟩
      · have := ok.dylib x k4
        omega
      · obtain ⟨n', code', k⟩ := v.back h y k4
        obtain ⟨_, _, _, s2, k6, k7, k8, _⟩ := v.held _ _ _ _ k
        have := eq_of_addr v.jit k1 k6 (k5.trans k7.symm)
        subst this
        rw [← k8, k3] at k
        exact absurd k (hh _ _ _)
    · cases h3
    · rw [Workers.step, job]
      simp only [hs, h1, h4]
      exact ⟨_, _, _, rfl⟩

/-! ## What goes wrong, and examples -/

/-- Runs steps from an empty process. -/
def runEvs (limit : Nat) (es : List Ev) : Hist × Pool :=
  es.foldl (fun (r, p) e => let (p', x) := step limit p e; ((e, x) :: r, p')) ([], start jit1)
where jit1 : Jit := ⟨0, 0, 0, []⟩

theorem run_runEvs (limit : Nat) (es : List Ev) :
    Run limit runEvs.jit1 (runEvs limit es).1 (runEvs limit es).2 := by
  suffices ∀ (es : List Ev) (r : Hist) (p : Pool), Run limit runEvs.jit1 r p →
      Run limit runEvs.jit1
        (es.foldl (fun (r, p) e => let (p', x) := step limit p e; ((e, x) :: r, p')) (r, p)).1
        (es.foldl (fun (r, p) e => let (p', x) := step limit p e; ((e, x) :: r, p')) (r, p)).2 from
    this es _ _ .start
  intro es
  induction es with
  | nil => intro r p h; exact h
  | cons e es ih => intro r p h; exact ih _ _ (.step h rfl)

/-- **Recompiling a held contract on the same worker fails**, although LLVM never failed. -/
theorem C62_compiles_fails : ∃ es, Linked (runEvs 0 es).1 ∧
    (step 0 (runEvs 0 es).2 (.job 0 ['a'] 1 true true true true true true)).2 = .failed :=
  ⟨[.job 0 ['a'] 1 true true true true true true], ⟨rfl, trivial⟩, by decide⟩

/-- **After LLVM failed once the contract never compiles on this worker**, although nobody holds it. -/
theorem C62_retries_fails : ∃ es, (∀ h a n code, ¬ Held (runEvs 0 es).1 h a n code) ∧
    (step 0 (runEvs 0 es).2 (.job 0 ['a'] 1 true true true true true true)).2 = .failed :=
  ⟨[.job 0 ['a'] 1 true true true false true true], fun _ _ _ _ h => h, by decide⟩

/-- And its code stays loaded, so memory is not reclaimed program by program. -/
theorem C62_reclaimed_fails : ∃ es a, (∀ h n code, ¬ Held (runEvs 0 es).1 h a n code) ∧
    (runEvs 0 es).2.jit.codeAt a = some 1 :=
  ⟨[.job 0 ['a'] 1 true true true false true true], 0, fun _ _ _ h => h, by decide⟩

/-- Two workers, a limit of two jobs, a failed link, an object of the same name, drops and a worker exit. -/
def sampleEvs : List Ev :=
  [.job 0 ['a'] 1 true true true true true true, .job 1 ['a'] 1 true true true true true true,
   .job 0 ['b'] 2 true true true false true true, .linkObject ['a'] 3 true,
   .job 0 ['a'] 1 true true true true true true, .dropHandle 1, .exitWorker 1]

example : (runEvs 2 sampleEvs).1.map (·.2) =
    [.done, .done, .handle 3 4, .handle 2 3, .failed, .handle 1 1, .handle 0 0] := by decide

example : Held (runEvs 2 sampleEvs).1 0 0 ['a'] 1 ∧ Held (runEvs 2 sampleEvs).1 2 3 ['a'] 3 ∧
    Held (runEvs 2 sampleEvs).1 3 4 ['a'] 1 := by
  refine ⟨⟨by decide, .inr (.inr (.inr (.inl ⟨rfl, rfl, rfl, rfl⟩)))⟩, ⟨by decide, .inr (.inl ⟨rfl, rfl, rfl, rfl⟩)⟩,
    ⟨by decide, .inl ⟨rfl, rfl, rfl, rfl⟩⟩⟩

/-- The code of the dropped program is gone, that of the failed link stays until its dylib goes. -/
example : (runEvs 2 sampleEvs).2.jit.codeAt 1 = none ∧ (runEvs 2 sampleEvs).2.jit.codeAt 2 = some 2 ∧
    (runEvs 2 (sampleEvs ++ [.dropHandle 0])).2.jit.codeAt 2 = none := by decide

example : (runEvs 2 (sampleEvs ++ [.dropHandle 0, .dropHandle 2, .dropHandle 3, .exitWorker 0])).2.workers = [] := by
  decide

example : Linked (runEvs 2 (sampleEvs.take 2)).1 ∧ ∀ h a code, ¬ Held (runEvs 2 (sampleEvs.take 2)).1 h a ['b'] code := by
  refine ⟨⟨rfl, rfl, trivial⟩, fun h a code hh => ?_⟩
  rcases hh with ⟨_, _, h1, _⟩ | ⟨_, _, h1, _⟩ | h1
  · cases h1
  · cases h1
  · cases h1

end Verif.Workers
