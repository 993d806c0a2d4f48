import Verif.Lemmas.Store
/-!
# The artifact store (C35)

Full claim (C35): any sequence of calls, also from several threads at once, behaves like a finite map
whose artifacts are on disk. Calls one after the other satisfy it (`C35_sequential`), as do overlapping
calls on different keys (`C35_overlap_partial`). Overlapping calls on one key do not
(`C35_race_fails`, `C35_mix_fails`), and neither does a failing overwrite (`C35_failed_write_fails`).
-/

namespace Verif.Store

/-- Different keys never share a file. -/
theorem C35_paths (k k' : Key) : artifactPath k = artifactPath k' ↔ k = k' :=
  ⟨artifactPath_inj, fun h => by rw [h]⟩

/-- Keys differing in one field only. -/
example : artifactPath ⟨0xabc, 13, .auto, .default⟩ ≠ artifactPath ⟨0xabc, 13, .auto, .less⟩ :=
  fun h => absurd ((C35_paths _ _).mp h) (by decide)

/-- Calls made one after the other: after any history, for every key, `load` answers exactly what a
map would, and the file it names holds the stored bytes. Files that cannot be removed do no harm; a
failing write must not damage the file of a stored artifact. -/
theorem C35_sequential (ops : List Op) (hc : Spec.CleanFailures State.init (fun _ => none) ops) (k : Key) :
    Spec.AgreesAt (runOps State.init ops).index (runOps State.init ops).fs (Spec.runOps ops) k := by
  have key : ∀ (ops : List Op) (s : State) (m : Spec.Map), PathsOk s.index →
      (∀ k, Spec.AgreesAt s.index s.fs m k) → Spec.CleanFailures s m ops →
      ∀ k, Spec.AgreesAt (runOps s ops).index (runOps s ops).fs (ops.foldl Spec.apply m) k := by
    intro ops
    induction ops with
    | nil => intro s m _ ha _; exact ha
    | cons o r ih =>
      intro s m hp ha hc
      have h1 := apply_ok o hp ha hc.1
      exact ih (apply s o) (Spec.apply m o) h1.1 h1.2 hc.2
  exact key ops State.init _ (by intro p hp; simp [State.init] at hp)
    (by intro k; simp [State.init, Spec.AgreesAt, Index.get]) hc k

/-- Store, overwrite, delete another key, fail to store a third. -/
example : ∃ ops, Spec.CleanFailures State.init (fun _ => none) ops ∧
    Spec.runOps ops ⟨1, 13, .auto, .default⟩ = some (8, [3, 4]) ∧ ops.length = 5 :=
  ⟨[.store ⟨1, 13, .auto, .default⟩ 7 [1, 2] .ok, .store ⟨2, 13, .auto, .default⟩ 9 [5] .ok,
    .store ⟨1, 13, .auto, .default⟩ 8 [3, 4] .ok, .delete ⟨2, 13, .auto, .default⟩ false,
    .store ⟨3, 13, .auto, .default⟩ 1 [6] (.failed (some []))],
   by
    simp only [Spec.CleanFailures, Spec.apply, and_true]
    refine ⟨by simp, by simp, by simp, by simp, ?_⟩
    rintro k mf b left h
    simp only [Op.store.injEq, WriteResult.failed.injEq] at h
    obtain ⟨rfl, -, -, -⟩ := h
    exact .inl (by decide), by decide, rfl⟩

/-- An overwrite that fails half-way: `store` reports an error, yet the old artifact is still listed
and its file is damaged. -/
theorem C35_failed_write_fails : ∃ ops k, ¬ Spec.AgreesAt (runOps State.init ops).index
    (runOps State.init ops).fs (Spec.runOps ops) k := by
  refine ⟨[.store ⟨1, 13, .auto, .default⟩ 7 [1, 2] .ok,
    .store ⟨1, 13, .auto, .default⟩ 8 [3, 4] (.failed (some [3]))], ⟨1, 13, .auto, .default⟩, ?_⟩
  intro h
  have hi : (runOps State.init [Op.store ⟨1, 13, .auto, .default⟩ 7 [1, 2] .ok,
    .store ⟨1, 13, .auto, .default⟩ 8 [3, 4] (.failed (some [3]))]).index.get ⟨1, 13, .auto, .default⟩ =
      some ⟨7, artifactPath ⟨1, 13, .auto, .default⟩⟩ := by
    simp [runOps, apply, store, Index.get, Index.insert, State.init]
  have hm : Spec.runOps [Op.store ⟨1, 13, .auto, .default⟩ 7 [1, 2] .ok,
    .store ⟨1, 13, .auto, .default⟩ 8 [3, 4] (.failed (some [3]))] ⟨1, 13, .auto, .default⟩ =
      some (7, [1, 2]) := by decide
  unfold Spec.AgreesAt at h
  rw [hi, hm] at h
  have h2 := h.2
  simp [runOps, apply, store, State.init, Fs.write] at h2

/-- A `store` running between the two actions of a `delete` of the same key: all calls have returned,
`load` succeeds, and the file it names does not exist. -/
theorem C35_race_fails : ∃ evs k st, (∀ t, (run CState.init evs).thread t = none) ∧
    (run CState.init evs).index.get k = some st ∧ (run CState.init evs).fs st.path = none := by
  refine ⟨[.startStore 0 ⟨1, 13, .auto, .default⟩ 7 [1], .cont 0, .startDelete 0 ⟨1, 13, .auto, .default⟩,
    .startStore 1 ⟨1, 13, .auto, .default⟩ 8 [2], .cont 1, .cont 0, .cont 0],
    ⟨1, 13, .auto, .default⟩, ⟨8, artifactPath ⟨1, 13, .auto, .default⟩⟩, ?_, ?_, ?_⟩
  · intro t
    simp only [run, List.foldl_cons, List.foldl_nil, step, CState.init, setThread]
    by_cases h0 : t = 0
    · subst h0; decide +kernel
    · by_cases h1 : t = 1
      · subst h1; decide +kernel
      · simp [setThread, h0, h1, Index.get, Index.insert, Index.remove]
  · decide +kernel
  · decide +kernel

/-- Two overlapping stores of one key: the listed manifest is from one call, the bytes from the
other. -/
theorem C35_mix_fails : ∃ evs k st, (∀ t, (run CState.init evs).thread t = none) ∧
    (run CState.init evs).index.get k = some st ∧ st.manifest = 7 ∧
    (run CState.init evs).fs st.path = some [2] ∧
    ∀ e ∈ evs, ∀ t m b, e = .startStore t k m b → m = 7 → b = [1] := by
  refine ⟨[.startStore 0 ⟨1, 13, .auto, .default⟩ 7 [1], .startStore 1 ⟨1, 13, .auto, .default⟩ 8 [2],
    .cont 1, .cont 0], ⟨1, 13, .auto, .default⟩, ⟨7, artifactPath ⟨1, 13, .auto, .default⟩⟩,
    ?_, ?_, rfl, ?_, ?_⟩
  · intro t
    simp only [run, List.foldl_cons, List.foldl_nil, step, CState.init, setThread]
    by_cases h0 : t = 0
    · subst h0; decide +kernel
    · by_cases h1 : t = 1
      · subst h1; decide +kernel
      · simp [setThread, h0, h1]
  · decide +kernel
  · decide +kernel
  · intro e he t m b heq hm
    subst heq; subst hm
    simp at he; exact he.2

/-- Part of C35: calls from any number of threads, interleaved action by action, as long as two calls
on one key do not overlap and `clear` starts when no call is in progress. For every key without a
half-finished `store`, callers see what the map holds, bytes included. Missing (and false, see above):
overlapping calls on one key. -/
theorem C35_overlap_partial (evs : List Ev) (h : Spec.NoOverlap evs) (k : Key)
    (hk : ∀ u m b, (run CState.init evs).thread u ≠ some (.insert k m b)) :
    Spec.AgreesAt (run CState.init evs).index (run CState.init evs).fs (Spec.runBoth evs).2 k := by
  have hi := cinv_run evs h
  rw [← runBoth_fst] at hk ⊢
  exact (agreesAt_iff hi.paths _ _ _).mpr ⟨hi.manifests k, fun mf b hm => hi.files k mf b hm hk⟩

/-- Two stores and a delete of three different keys, interleaved. -/
example :
    let k1 : Key := ⟨1, 13, .auto, .default⟩
    let k2 : Key := ⟨2, 13, .auto, .default⟩
    let evs : List Ev := [.startStore 0 k1 7 [1], .startStore 1 k2 8 [2], .cont 0, .cont 1,
      .startDelete 0 k1, .startStore 1 k2 9 [3], .cont 0, .cont 1]
    Spec.AgreesAt (run CState.init evs).index (run CState.init evs).fs (Spec.runBoth evs).2 k2 ∧
      (Spec.runBoth evs).2 k2 = some (9, [3]) ∧ (Spec.runBoth evs).2 k1 = none := by
  intro k1 k2 evs
  have hk : k1 ≠ k2 := by decide
  have hb1 : (k1 == k2) = false := by decide
  have hb2 : (k2 == k1) = false := by decide
  have h12 : artifactPath k1 ≠ artifactPath k2 := fun h => absurd (artifactPath_inj h) (by decide)
  refine ⟨C35_overlap_partial evs ?_ k2 ?_, by decide +kernel, by decide +kernel⟩
  · intro pre e post heq
    match pre, heq with
    | [], heq => simp [evs] at heq; obtain ⟨rfl, _⟩ := heq; intro u p hu; simp [run, CState.init] at hu
    | [_], heq =>
      simp [evs] at heq; obtain ⟨rfl, rfl, _⟩ := heq
      intro u p hu
      by_cases h0 : u = 0 <;> simp [run, step, CState.init, setThread, h0] at hu
      subst hu; simpa [Spec.Concerns] using hk
    | [_, _], heq => simp [evs] at heq; obtain ⟨_, _, rfl, _⟩ := heq; trivial
    | [_, _, _], heq => simp [evs] at heq; obtain ⟨_, _, _, rfl, _⟩ := heq; trivial
    | [_, _, _, _], heq =>
      simp [evs] at heq; obtain ⟨rfl, rfl, rfl, rfl, rfl, _⟩ := heq
      intro u p hu
      by_cases h0 : u = 0 <;> by_cases h1 : u = 1 <;>
        simp [run, step, CState.init, setThread, h0, h1] at hu
    | [_, _, _, _, _], heq =>
      simp [evs] at heq; obtain ⟨rfl, rfl, rfl, rfl, rfl, rfl, _⟩ := heq
      intro u p hu
      by_cases h0 : u = 0 <;> by_cases h1 : u = 1 <;>
        simp [run, step, CState.init, setThread, h0, h1, Index.get, Index.insert, Index.remove,
          List.lookup_cons, hb1, hb2, hk, Ne.symm hk] at hu
      all_goals (subst hu; simpa [Spec.Concerns] using fun h => h12 h.symm)
    | [_, _, _, _, _, _], heq => simp [evs] at heq; obtain ⟨_, _, _, _, _, _, rfl, _⟩ := heq; trivial
    | [_, _, _, _, _, _, _], heq =>
      simp [evs] at heq; obtain ⟨_, _, _, _, _, _, _, rfl, _⟩ := heq; trivial
    | _ :: _ :: _ :: _ :: _ :: _ :: _ :: _ :: r, heq => simp [evs] at heq
  · intro u m b
    by_cases h0 : u = 0 <;> by_cases h1 : u = 1 <;>
      simp [evs, run, step, CState.init, setThread, h0, h1, Index.get, Index.insert, Index.remove,
        List.lookup_cons, hb1, hb2, hk, Ne.symm hk]

end Verif.Store
