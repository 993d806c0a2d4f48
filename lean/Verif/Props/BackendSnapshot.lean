import Verif.Model.BackendSnapshot
import Verif.Props.Backend
/-!
# Properties: the statistics snapshot taken while the backend works (C76)
-/

namespace Verif.Backend

/-- The counters only grow. -/
structure Grown (s t : State) : Prop where
  dispatched : s.stats.dispatched ≤ t.stats.dispatched
  succeeded : s.stats.succeeded ≤ t.stats.succeeded
  failed : s.stats.failed ≤ t.stats.failed

theorem Grown.of_eq {r s t : State} (h : Grown r s) (h1 : t.stats.dispatched = s.stats.dispatched)
    (h2 : t.stats.succeeded = s.stats.succeeded) (h3 : t.stats.failed = s.stats.failed) : Grown r t :=
  ⟨h1 ▸ h.dispatched, h2 ▸ h.succeeded, h3 ▸ h.failed⟩

theorem grown_micro {cfg : Config} {H : Hist} {r : State} (c : Notifier) (s t : State) (_ : Inv cfg H s)
    (h : Grown r s) (m : Micro cfg H c s t) : Grown r t := by
  cases m with
  | misc st ev now ls hits hd hs hf hk hev => exact h.of_eq hd hs hf
  | storeClear => exact h.of_eq rfl rfl rfl
  | refuse n => rw [release_eq]; exact h.of_eq rfl rfl rfl
  | load => exact h.of_eq rfl rfl rfl
  | track k code mode hr he => simp only [ensureEntry, he]; exact h.of_eq rfl rfl rfl
  | wait => exact h.of_eq rfl rfl rfl
  | heat => exact h.of_eq rfl rfl rfl
  | touch => exact h.of_eq rfl rfl rfl
  | dispatch => exact ⟨Nat.le_succ_of_le h.dispatched, h.succeeded, h.failed⟩
  | clear => simp only [clearResident, releaseAll_eq]; exact h.of_eq rfl rfl rfl
  | result j o hj =>
    rw [handleResult_eq]
    split
    · exact h.of_eq rfl rfl rfl
    · obtain ⟨_, h2, _, h4, _, _, _, _, h9, _, h11, _⟩ := publish_shape cfg (afterJob s j) j o
      have e1 : (afterJob s j).stats = s.stats := rfl
      rw [e1] at h11 h9
      obtain ⟨a, b, d⟩ := h
      refine ⟨?_, ?_, ?_⟩
      · show _ ≤ (publish cfg (afterJob s j) j o).stats.dispatched
        omega
      · show _ ≤ (publish cfg (afterJob s j) j o).stats.succeeded
        rcases h11 with ⟨_, _, ha, hb⟩ | ⟨_, _, _, ha, hb⟩ <;> omega
      · show _ ≤ (publish cfg (afterJob s j) j o).stats.failed
        rcases h11 with ⟨_, _, ha, hb⟩ | ⟨_, _, _, ha, hb⟩ <;> omega
  | idle k =>
    obtain ⟨h1, h2, h3, h4, h5, h6, h7, h8, h9, _⟩ := removeEntry_frame (removeResident s k) k
    refine h.of_eq ?_ ?_ ?_ <;> simp only [evictIdle, h8] <;> rfl
  | lru k =>
    obtain ⟨h1, h2, h3, h4, h5, h6, h7, h8, h9, _⟩ := removeEntry_frame (removeResident s k) k
    refine h.of_eq ?_ ?_ ?_ <;> simp only [evictLru, h8] <;> rfl
  | cold => exact h.of_eq rfl rfl rfl
  | start i => exact h.of_eq rfl rfl rfl
  | close => exact h.of_eq rfl rfl rfl
  | abandon => exact h.of_eq rfl rfl rfl

theorem grown_run {cfg : Config} {pre per : AMap Key Program} (hs : GoodStart pre per) (a b : List Ev) :
    Grown (run cfg (init pre per) a) (run cfg (init pre per) (a ++ b)) := by
  have hall := allows_histOf (a ++ b)
  have hi : Inv cfg (histOf (a ++ b)) (run cfg (init pre per) a) :=
    inv_run (inv_init cfg _ hs) a (fun e he => hall e (List.mem_append_left _ he))
  have e : run cfg (init pre per) (a ++ b) = run cfg (run cfg (init pre per) a) b := by
    simp only [run, List.foldl_append]
  rw [e]
  exact run_inv (P := Grown (run cfg (init pre per) a)) grown_micro hi ⟨Nat.le_refl _, Nat.le_refl _, Nat.le_refl _⟩ b
    (fun e he => hall e (List.mem_append_right _ he))

/-! ## C76 -/

/-- C76, what holds: let the backend do `b` between the first and the second load of a snapshot and `c` between
the second and the third. The number of pending jobs reported is at most the number in flight at the first
load, and at least the number in flight at the last load less the jobs dispatched in between, both counted with
the results discarded after a clear (C30). Missing from the full claim: that it is the number in flight at some
moment of the snapshot. -/
theorem C76_snapshot_partial {cfg : Config} {pre per : AMap Key Program} (hs : GoodStart pre per)
    (a b c : List Ev) :
    let s0 := run cfg (init pre per) a
    let s1 := run cfg (init pre per) (a ++ b)
    let s2 := run cfg (init pre per) (a ++ b ++ c)
    snapshotPending s0 s1 s2 ≤ (inFlight s0.trace).length + discarded s0.trace ∧
    (inFlight s2.trace).length + discarded s2.trace ≤
      snapshotPending s0 s1 s2 + (s2.stats.dispatched - s0.stats.dispatched) := by
  intro s0 s1 s2
  have g1 : Grown s0 s1 := grown_run hs a b
  have g2 : Grown s1 s2 := grown_run hs (a ++ b) c
  have t0 : TInv s0 := tinv_history hs a
  have t2 : TInv s2 := tinv_history hs (a ++ b ++ c)
  have l0 : (inFlight s0.trace).length = s0.jobs.length := by rw [← t0.jobs, List.length_map]
  have l2 : (inFlight s2.trace).length = s2.jobs.length := by rw [← t2.jobs, List.length_map]
  have c0 := t0.counters
  have c2 := t2.counters
  obtain ⟨d1, u1, f1⟩ := g1
  obtain ⟨d2, u2, f2⟩ := g2
  simp only [snapshotPending]
  omega

/-- When nothing is dispatched and nothing completes during the snapshot, the number is that of C30. -/
theorem C76_quiet {cfg : Config} {pre per : AMap Key Program} (hs : GoodStart pre per) (a b c : List Ev)
    (hd : (run cfg (init pre per) (a ++ b ++ c)).stats.dispatched = (run cfg (init pre per) a).stats.dispatched)
    (hf : inFlight (run cfg (init pre per) (a ++ b ++ c)).trace = inFlight (run cfg (init pre per) a).trace)
    (hx : discarded (run cfg (init pre per) a).trace = 0) :
    snapshotPending (run cfg (init pre per) a) (run cfg (init pre per) (a ++ b))
      (run cfg (init pre per) (a ++ b ++ c)) = (inFlight (run cfg (init pre per) a).trace).length := by
  obtain ⟨h1, h2⟩ := C76_snapshot_partial (cfg := cfg) hs a b c
  rw [hd, hf] at h2
  omega

/-- `exA` is dispatched; between the loads `exB` is dispatched and then `exA` completes. -/
def exBusy : List Ev := [.compileJit exB [1] none true, .start 0, .result 0 .jit]

/-- C76 does not hold of the code: the snapshot can report that nothing is pending although at every moment of
it, before, during and after what the backend does between the first two loads, a job was in flight. -/
theorem C76_snapshot_fails :
    ¬ ∀ (cfg : Config) (a b : List Ev),
      ∃ n, n ≤ b.length ∧
        snapshotPending (run cfg (init [] []) a) (run cfg (init [] []) (a ++ b)) (run cfg (init [] []) (a ++ b)) =
          (inFlight (run cfg (init [] []) (a ++ b.take n)).trace).length := by
  intro h
  obtain ⟨n, hn, e⟩ := h exCfg [.compileJit exA [1] none true] exBusy
  have h4 : n = 0 ∨ n = 1 ∨ n = 2 ∨ n = 3 := by
    have : exBusy.length = 3 := rfl
    omega
  rcases h4 with rfl | rfl | rfl | rfl <;> revert e <;> decide

/-- The bounds on a busy snapshot: one job in flight at the first load, one at the last, one dispatched in
between, none reported. The difference would be negative if both jobs completed, so the subtraction must
saturate. -/
example :
    let s0 := run exCfg (init [] []) [.compileJit exA [1] none true]
    let s2 := run exCfg (init [] []) ([.compileJit exA [1] none true] ++ exBusy)
    let s3 := run exCfg (init [] []) ([.compileJit exA [1] none true] ++ exBusy ++ [.start 1, .result 1 .failed])
    snapshotPending s0 s2 s2 = 0 ∧ (inFlight s0.trace).length = 1 ∧ (inFlight s2.trace).length = 1 ∧
    s2.stats.dispatched = 2 ∧ s0.stats.dispatched < s2.stats.succeeded + s3.stats.failed := by decide

/-- A quiet snapshot: only a lookup and the start of the job come between the loads. -/
example :
    let a : List Ev := [.compileJit exA [1] none true]
    let b : List Ev := [.lookup true false exB [1]]
    let c : List Ev := [.start 0]
    let s0 := run exCfg (init [] []) a
    let s2 := run exCfg (init [] []) (a ++ b ++ c)
    s2.stats.dispatched = s0.stats.dispatched ∧ inFlight s2.trace = inFlight s0.trace ∧ discarded s0.trace = 0 ∧
    snapshotPending s0 (run exCfg (init [] []) (a ++ b)) s2 = 1 := by decide

end Verif.Backend
