import Verif.Lemmas.Pause
/-!
# Pause and resume (C34)

Full claim (C34): after any concurrent use of `pause`/`resume`, once all commands are delivered, the
helper is paused iff the number of pauses exceeds the number of resumes. The full claim is false
(`C34_race_fails`, `C34_drop_fails`); it holds when each `pause`/`resume` call sends its command before
the next one starts changing the depth, and no command is dropped.
-/

namespace Verif.Pause



/-- Two threads, all commands delivered: thread A's resume decides first but sends last, overtaken by
thread B's pause. One pause is outstanding and the helper runs. -/
theorem C34_race_fails : ∃ evs, Spec.Settled (run 4096 (init true) evs) ∧ Spec.Matched evs ∧
    (run 4096 (init true) evs).dropped = 0 ∧ Spec.outstanding evs = 1 ∧
    Spec.Paused (run 4096 (init true) evs) false := by
  refine ⟨[.spawn, .pauseAtomic, .send 0, .drain, .resumeAtomic, .pauseAtomic, .send 1, .send 0, .drain,
    .drain], ?_, ?_, ?_, ?_, ?_⟩
  · exact ⟨by decide, by decide⟩
  · intro n
    rcases Nat.lt_or_ge n 10 with h | h
    · have : ∀ n < 10, 0 ≤ Spec.outstanding (List.take n [Ev.spawn, .pauseAtomic, .send 0, .drain,
        .resumeAtomic, .pauseAtomic, .send 1, .send 0, .drain, .drain]) := by decide
      exact this n h
    · rw [List.take_of_length_le (by simpa using h)]; decide
  · decide
  · decide
  · exact ⟨by decide, by decide⟩

/-- A full command channel also breaks it, even sequentially: the resume is dropped and the helper
stays stopped with no pause outstanding (until the next pause/resume cycle). -/
theorem C34_drop_fails : ∃ evs, Spec.Settled (run 1 (init true) evs) ∧ Spec.Sequential 1 evs ∧
    Spec.outstanding evs = 0 ∧ Spec.Paused (run 1 (init true) evs) true := by
  refine ⟨[.pauseAtomic, .send 0, .resumeAtomic, .send 0, .drain], ⟨by decide, by decide⟩, ?_, by decide,
    ⟨by decide, by decide⟩⟩
  intro pre e post heq he
  match pre, heq with
  | [], _ => rfl
  | [_], heq => simp at heq; rcases he with rfl | rfl <;> simp at heq
  | [_, _], heq => simp at heq; obtain ⟨rfl, rfl, _⟩ := heq; decide
  | [_, _, _], heq => simp at heq; rcases he with rfl | rfl <;> simp at heq
  | [_, _, _, _], heq => simp at heq; rcases he with rfl | rfl <;> simp at heq
  | _ :: _ :: _ :: _ :: _ :: r, heq => simp at heq

/-- The depth counter is exactly the number of outstanding pauses, under every interleaving: what
`is_paused()` reports is always right. -/
theorem C34_depth (cap : Nat) (evs : List Ev) (hm : Spec.Matched evs) :
    0 < (run cap (init true) evs).depth ↔ 0 < Spec.outstanding evs := by
  rw [← run_facts cap evs hm]; omega

/-- Part of C34: if calls do not overlap, resumes match pauses and no command is dropped, then once
everything sent is handled the helper is paused iff some pause is outstanding — whatever other
commands, helper restarts and delays occur in between. Missing (and false, see above): overlapping
calls and full channels. -/
theorem C34_settled_partial (cap : Nat) (evs : List Ev) (hseq : Spec.Sequential cap evs)
    (hm : Spec.Matched evs) (hd : (run cap (init true) evs).dropped = 0)
    (hset : Spec.Settled (run cap (init true) evs)) :
    Spec.Paused (run cap (init true) evs) (decide (0 < Spec.outstanding evs)) := by
  have hinv : Inv (run cap (init true) evs) := by
    clear hset
    induction evs using Verif.snocInd with
    | nil => exact ⟨rfl, rfl, by simp [run, init], by simp [run, init]⟩
    | append_singleton l e ih =>
      rw [run_snoc] at hd ⊢
      have hd' : (run cap (init true) l).dropped = 0 :=
        Nat.le_zero.mp (hd ▸ dropped_step cap _ e)
      have hl : Spec.Sequential cap l := by
        intro pre e' post heq he'
        exact hseq pre e' (post ++ [e]) (by simp [heq]) he'
      refine inv_step cap (ih hl (matched_prefix hm) hd') e (fun he => hseq l e [] rfl he) ?_ hd
      rintro rfl
      have h1 := hm (l ++ [Ev.resumeAtomic]).length
      rw [List.take_length, outstanding_append, ← run_facts cap l (matched_prefix hm)] at h1
      simp [Spec.outstanding] at h1
      omega
  have hf := hinv.final
  rw [hset.1, hset.2] at hf
  have hdep := C34_depth cap evs hm
  have hb : (run cap (init true) evs).flag = decide (0 < Spec.outstanding evs) := by
    have : (run cap (init true) evs).flag = decide (0 < (run cap (init true) evs).depth) := hf
    rw [this]; simp [hdep]
  exact ⟨hb, fun h hh => by rw [hinv.helper h hh, hb]⟩

/-- Nested pauses with a helper restarted in the middle. -/
example : Spec.Paused (run 4 (init true) [.spawn, .pauseAtomic, .send 0, .pauseAtomic, .discard, .drain,
    .resumeAtomic, .spawn]) true := ⟨by decide, by decide⟩

end Verif.Pause
