import Verif.Lemmas.Runner
/-!
# C68: the verdict of the state-test runner
-/

namespace Verif.Runner

open Spec

variable {B H : Type} [DecidableEq B] [DecidableEq H]

/-- **C68.** A test is counted as passed exactly if exception, output, logs and state are as expected. -/
theorem C68_test (t : Case H) (out : Option B) (e : Exec B H) : checkExecution t out e = .ok () ↔ Passes out t e :=
  checkExecution_iff t out e

example : checkExecution (B := Nat) (H := Nat) ⟨false, true, 1, 2⟩ (some 5) ⟨true, some 5, 1, 2⟩ = .ok () :=
  (C68_test _ _ _).2 (.inr ⟨rfl, rfl, rfl, rfl, by simp⟩)

/-- **C68.** A file that is not skipped passes exactly if it can be read and every one of its tests, for every fork
but Constantinople, is fulfilled. -/
theorem C68_suite (skip : Bool) (read : Option (Option (List (TUnit B H)))) (exec : TUnit B H → Nat → Case H → Exec B H) :
    executeSuite skip read exec = .ok ↔ skip = true ∨ ∃ us, read = some (some us) ∧ SuitePasses us exec := by
  unfold executeSuite
  cases skip with
  | true => simp
  | false =>
    simp only [Bool.false_eq_true, if_false, false_or]
    rcases read with _ | _ | us
    · simp
    · simp
    · simp [runUnits_iff]

/-- Two forks; the second test of the second has the wrong state. -/
example : executeSuite (B := Nat) (H := Nat) false
    (some (some [⟨none, [⟨false, 1, [⟨false, true, 1, 2⟩]⟩, ⟨false, 2, [⟨true, false, 0, 0⟩, ⟨false, true, 1, 3⟩]⟩]⟩]))
    (fun _ _ _ => ⟨true, none, 1, 2⟩) = .err .stateRootMismatch := by decide

/-- **C68.** If the threads have finished and the run is reported as passed, every file was run exactly once and
passed, however the threads interleaved. -/
theorem C68_success (keepGoing single : Bool) (par : Option Nat) (hp : par ≠ some 0) (n : Nat) (result : Nat → Outcome)
    (ops : List Op) (s : Run) (hs : s = run keepGoing result (start n (numThreads single par n)) ops)
    (hf : finished s = true) (hv : verdict s = true) :
    s.done.Nodup ∧ ∀ i, (i ∈ s.done ↔ i < n) ∧ (i < n → result i = .ok) := by
  have h := inv_run keepGoing result n _ ops (inv_start keepGoing result n (numThreads single par n))
  rw [← hs] at h
  clear hs
  obtain ⟨h0, hw⟩ := (verdict_iff s).1 hv
  have hns : s.stop ≠ true := by
    intro hst
    obtain ⟨t, ht | ⟨_, ht⟩⟩ := h.stopped hst <;> cases hw t _ ht
  have hidx : s.idx = n := by
    by_cases hn : n = 0
    · have := h.bound; omega
    · have hpos := numThreads_pos (single := single) hp (Nat.pos_of_ne_zero hn)
      rw [← h.threads] at hpos
      have ht : s.threads[0]? = some (s.threads[0]) := List.getElem?_eq_getElem hpos
      have := hw 0 _ ht
      rw [this] at ht
      rcases h.left 0 (.inr ht) with h1 | h1 | h1
      · exact h1
      · exact absurd h1 hns
      · omega
  have hdone : ∀ i < n, i ∈ s.done := by
    intro i hi
    rcases h.cover i (by omega) with hd | ⟨t, ht⟩
    · exact hd
    · cases hw t _ ht
  refine ⟨h.nodup, fun i => ⟨⟨fun hi => hidx ▸ h.below i hi, hdone i⟩, fun hi => ?_⟩⟩
  cases hr : result i with
  | ok => rfl
  | err k =>
    have := errs_pos (hdone i hi) hr
    have := h.errors
    omega
  | panic =>
    obtain ⟨t, ht | ht⟩ := h.panicked i (hdone i hi) hr <;> cases hw t _ ht

/-- Two threads and three files. -/
def sampleOps : List Op :=
  [.check 0, .check 1, .take 1, .take 0, .exec 0, .check 0, .take 0, .exec 1, .check 1, .take 1, .exec 0, .check 0, .take 0,
   .settle 1, .settle 0]

example : verdict (run false (fun _ => .ok) (start 3 2) sampleOps) = true ∧
    finished (run false (fun _ => .ok) (start 3 2) sampleOps) = true ∧
    (run false (fun _ => .ok) (start 3 2) sampleOps).done = [2, 0, 1] := by decide

/-- **C68.** A run that is reported as failed has a file that failed. -/
theorem C68_failure (keepGoing : Bool) (threads n : Nat) (result : Nat → Outcome) (ops : List Op) (s : Run)
    (hs : s = run keepGoing result (start n threads) ops) (hf : finished s = true) (hv : verdict s = false) :
    ∃ i < n, i ∈ s.done ∧ result i ≠ .ok := by
  have h := inv_run keepGoing result n _ ops (inv_start keepGoing result n threads)
  rw [← hs] at h
  clear hs
  have herr : 0 < s.nErrors → ∃ i < n, i ∈ s.done ∧ result i ≠ .ok := by
    intro hpos
    rw [h.errors] at hpos
    obtain ⟨i, hi⟩ := List.exists_mem_of_length_pos hpos
    obtain ⟨hd, hr⟩ := List.mem_filter.1 hi
    refine ⟨i, Nat.lt_of_lt_of_le (h.below i hd) h.bound, hd, fun e => ?_⟩
    rw [e] at hr
    cases hr
  by_cases h0 : s.nErrors = 0
  · have : ¬ ∀ (t : Nat) (x : Thread), s.threads[t]? = some x → x = .waiting .ok := by
      intro hall
      rw [(verdict_iff s).2 ⟨h0, hall⟩] at hv
      cases hv
    have : ∃ (t : Nat) (x : Thread), s.threads[t]? = some x ∧ x ≠ .waiting .ok := by
      refine Classical.byContradiction fun hn => this fun t x hx => Classical.byContradiction fun hne => hn ⟨t, x, hx, hne⟩
    obtain ⟨t, x, hx, hne⟩ := this
    obtain ⟨r, rfl⟩ := finished_get hf hx
    cases r with
    | ok => exact absurd rfl hne
    | err => exact herr (h.threadErr t (.inr hx)).2
    | panic =>
      obtain ⟨i, hd, hr⟩ := h.threadPanic t (.inr hx)
      exact ⟨i, Nat.lt_of_lt_of_le (h.below i hd) h.bound, hd, by rw [hr]; simp⟩
  · exact herr (Nat.pos_of_ne_zero h0)

/-- File 1 fails; the first thread then stops early. -/
example : ∃ i < 3, i ∈ (run false (fun i => if i = 1 then .err .parse else .ok) (start 3 2)
      [.check 0, .check 1, .take 0, .take 1, .exec 1, .exec 0, .check 0, .settle 1, .settle 0]).done ∧
    (if i = 1 then Outcome.err .parse else .ok) ≠ .ok :=
  C68_failure false 2 3 (fun i => if i = 1 then .err .parse else .ok) _ _ rfl (by decide) (by decide)

/-- **C68.** With `keep_going`, and as long as no file panics, all files are run whether or not some fail. -/
theorem C68_keepGoing (single : Bool) (par : Option Nat) (hp : par ≠ some 0) (n : Nat) (result : Nat → Outcome)
    (hr : ∀ i < n, result i ≠ .panic) (ops : List Op) (s : Run)
    (hs : s = run true result (start n (numThreads single par n)) ops) (hf : finished s = true) :
    s.done.Nodup ∧ ∀ i, i ∈ s.done ↔ i < n := by
  have h := inv_run true result n _ ops (inv_start true result n (numThreads single par n))
  rw [← hs] at h
  clear hs
  have hnp : ∀ t : Nat, s.threads[t]? ≠ some (Thread.waiting .panic) := by
    intro t ht
    obtain ⟨i, hd, hi⟩ := h.threadPanic t (.inr ht)
    exact hr i (Nat.lt_of_lt_of_le (h.below i hd) h.bound) hi
  have hidx : s.idx = n := by
    by_cases hn : n = 0
    · have := h.bound; omega
    · have hpos := numThreads_pos (single := single) hp (Nat.pos_of_ne_zero hn)
      rw [← h.threads] at hpos
      have ht : s.threads[0]? = some (s.threads[0]) := List.getElem?_eq_getElem hpos
      obtain ⟨r, e⟩ := finished_get hf ht
      rw [e] at ht
      cases r with
      | panic => exact absurd ht (hnp 0)
      | err => exact nomatch (h.threadErr 0 (.inr ht)).1
      | ok =>
        rcases h.left 0 (.inr ht) with h1 | h1 | h1
        · exact h1
        · obtain ⟨t, ht | ⟨hk, _⟩⟩ := h.stopped h1
          · exact absurd ht (hnp t)
          · cases hk
        · exact nomatch h1.1
  refine ⟨h.nodup, fun i => ⟨fun hi => hidx ▸ h.below i hi, fun hi => ?_⟩⟩
  rcases h.cover i (by omega) with hd | ⟨t, ht⟩
  · exact hd
  · obtain ⟨r, e⟩ := finished_get hf ht
    cases e

example : (run true (fun i => if i = 1 then .err .parse else .ok) (start 3 2) sampleOps).done = [2, 0, 1] ∧
    finished (run true (fun i => if i = 1 then .err .parse else .ok) (start 3 2) sampleOps) = true ∧
    verdict (run true (fun i => if i = 1 then .err .parse else .ok) (start 3 2) sampleOps) = false := by decide

/-- **C68.** The threads always reach the end: some thread can move until all have finished, and every move brings
the end closer. -/
theorem C68_ends (keepGoing : Bool) (result : Nat → Outcome) (s : Run) :
    (finished s = false → ∃ op, step keepGoing result s op ≠ s) ∧
    ∀ op, step keepGoing result s op ≠ s → (step keepGoing result s op).left < s.left :=
  ⟨step_moves keepGoing result s, step_left keepGoing result s⟩

example : (start 3 2).left = 18 ∧ (run false (fun _ => .ok) (start 3 2) sampleOps).left = 0 := by decide

end Verif.Runner
