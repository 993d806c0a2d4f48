import Verif.Lemmas.BackendSteps
/-!
# Lemmas: where resident programs come from
-/

namespace Verif.Backend

/-- Every program satisfies `F key code origin`; jobs of generation `g` or later have numbers from `N`. -/
structure Src (cfg : Config) (H : Hist) (N g : Nat) (F : Key → Code → Origin → Prop) (s : State) : Prop where
  next : N ≤ s.nextJob
  gen : g ≤ s.generation
  fresh : ∀ j ∈ s.jobs, g ≤ j.generation → N ≤ j.id
  job : ∀ j ∈ s.jobs, H.code j.key j.code
  entry : ∀ k e, s.entries.get k = some e → H.code k e.code
  resident : ∀ k p, s.resident.get k = some p → F k p.code p.origin
  stored : cfg.hasStore = true → ∀ k p, s.persisted.get k = some p → F k p.code p.origin

theorem src_evict {cfg : Config} {H : Hist} {N g : Nat} {F : Key → Code → Origin → Prop} {s t : State}
    (h : Src cfg H N g F s) (hn : t.nextJob = s.nextJob) (hg : t.generation = s.generation)
    (hj : t.jobs = s.jobs) (he : ∀ k e, t.entries.get k = some e → s.entries.get k = some e)
    (hr : ∀ k p, t.resident.get k = some p → s.resident.get k = some p)
    (hp : t.persisted = s.persisted) : Src cfg H N g F t :=
  ⟨by rw [hn]; exact h.next, by rw [hg]; exact h.gen, by rw [hj]; exact h.fresh, by rw [hj]; exact h.job,
    fun k e hk => h.entry k e (he k e hk), fun k p hk => h.resident k p (hr k p hk), by rw [hp]; exact h.stored⟩

theorem src_update {cfg : Config} {H : Hist} {N g : Nat} {F : Key → Code → Origin → Prop} {s t : State}
    (h : Src cfg H N g F s) (k : Key) (f : Entry → Entry) (hf : ∀ e, (f e).code = e.code)
    (he : t.entries = s.entries.update k f) (hn : t.nextJob = s.nextJob) (hg : t.generation = s.generation)
    (hj : t.jobs = s.jobs) (hr : t.resident = s.resident) (hp : t.persisted = s.persisted) :
    Src cfg H N g F t := by
  refine ⟨by rw [hn]; exact h.next, by rw [hg]; exact h.gen, by rw [hj]; exact h.fresh, by rw [hj]; exact h.job,
    ?_, by rw [hr]; exact h.resident, by rw [hp]; exact h.stored⟩
  intro q e hq
  rw [he, AMap.get_update] at hq
  split at hq
  · rename_i hqk
    cases hg' : s.entries.get q with
    | none => rw [hg'] at hq; cases hq
    | some e' =>
      rw [hg'] at hq
      simp only [Option.map_some, Option.some.injEq] at hq
      subst hq
      rw [hf]; exact h.entry q e' hg'
  · exact h.entry q e hq

theorem src_micro {cfg : Config} {H : Hist} {N g : Nat} {F : Key → Code → Origin → Prop}
    (hF : ∀ k code i, H.code k code → N ≤ i → F k code (.job i)) (c : Notifier) (s t : State)
    (hi : Inv cfg H s) (h : Src cfg H N g F s) (m : Micro cfg H c s t) : Src cfg H N g F t := by
  cases m with
  | misc => exact ⟨h.next, h.gen, h.fresh, h.job, h.entry, h.resident, h.stored⟩
  | storeClear => exact ⟨h.next, h.gen, h.fresh, h.job, h.entry, h.resident, fun _ k p hk => by simp [AMap.get] at hk⟩
  | refuse n => rw [release_eq]; exact ⟨h.next, h.gen, h.fresh, h.job, h.entry, h.resident, h.stored⟩
  | abandon => exact ⟨h.next, h.gen, h.fresh, h.job, h.entry, h.resident, h.stored⟩
  | load k q hr hs hq =>
    refine ⟨h.next, h.gen, h.fresh, h.job, h.entry, ?_, h.stored⟩
    intro k' p hp
    simp only [insertResident, AMap.get_insert] at hp
    split at hp
    · rename_i hkk
      simp only [Option.some.injEq] at hp
      subst hp
      subst hkk
      exact h.stored hs k' q hq
    · exact h.resident k' p hp
  | track k code mode hr he hc hcl hm =>
    simp only [ensureEntry, he]
    refine ⟨h.next, h.gen, h.fresh, h.job, ?_, h.resident, h.stored⟩
    intro q e hq
    simp only [AMap.get_insert] at hq
    split at hq
    · rename_i hqk
      simp only [Option.some.injEq] at hq
      subst hq; subst hqk; exact hc
    · exact h.entry q e hq
  | wait k e n mode =>
    exact src_update h k (fun e => { e with lastObserved := s.now, waiters := e.waiters ++ [c] })
      (fun _ => rfl) rfl rfl rfl rfl rfl rfl
  | heat k e =>
    exact src_update h k (fun e => { e with lastObserved := s.now, hotness := min (e.hotness + 1) U32_MAX })
      (fun _ => rfl) rfl rfl rfl rfl rfl rfl
  | touch k e =>
    exact src_update h k (fun e => { e with lastObserved := s.now })
      (fun _ => rfl) rfl rfl rfl rfl rfl rfl
  | dispatch kind k e n mode he hp hr hm ha hh hcl hn =>
    have h1 := src_update (t := { s with entries := s.entries.update k fun e => { e with phase := .working } }) h k
      (fun e => { e with phase := .working }) (fun _ => rfl) rfl rfl rfl rfl rfl rfl
    have hN := h.next
    refine ⟨Nat.le_succ_of_le h.next, h.gen, ?_, ?_, h1.entry, h.resident, h.stored⟩
    · intro j hj hg
      rcases List.mem_append.mp hj with hj | hj
      · exact h.fresh j hj hg
      · rw [List.mem_singleton] at hj; subst hj; exact hN
    · intro j hj
      rcases List.mem_append.mp hj with hj | hj
      · exact h.job j hj
      · rw [List.mem_singleton] at hj; subst hj; exact h.entry k e he
  | clear =>
    simp only [clearResident, releaseAll_eq]
    refine ⟨h.next, Nat.le_succ_of_le h.gen, h.fresh, h.job, ?_, ?_, h.stored⟩
    · intro k e hk; simp [AMap.get] at hk
    · intro k p hk; simp [AMap.get] at hk
  | result j o hj hcl =>
    have hsub : ∀ x ∈ s.jobs.filter (·.id ≠ j.id), x ∈ s.jobs := fun x hx => (List.mem_filter.mp hx).1
    have key : ∀ q e, ((s.entries.update j.key fun e => { e with waiters := [] }).erase j.key).get q = some e →
        s.entries.get q = some e := by
      intro q e hq
      rw [AMap.get_erase, AMap.get_update] at hq
      split at hq
      · cases hq
      · exact hq
    rw [handleResult_eq]
    split
    · exact ⟨h.next, h.gen, fun x hx => h.fresh x (hsub x hx), fun x hx => h.job x (hsub x hx),
        fun k e hk => h.entry k e (key k e hk), h.resident, h.stored⟩
    · rename_i hgen
      have hgen : j.generation = s.generation := by simpa using hgen
      have hgg : g ≤ j.generation := by rw [hgen]; exact h.gen
      have hnew : F j.key j.code (.job j.id) := hF _ _ _ (h.job j hj) (h.fresh j hj hgg)
      obtain ⟨h1, h2, h3, h4, h5, _, _, _, _, _, h11, h12⟩ := publish_shape cfg (afterJob s j) j o
      refine ⟨?_, ?_, ?_, ?_, ?_, ?_, ?_⟩
      · show N ≤ (publish cfg (afterJob s j) j o).nextJob
        rw [h5]; exact h.next
      · show g ≤ (publish cfg (afterJob s j) j o).generation
        rw [h4]; exact h.gen
      · show ∀ x ∈ (publish cfg (afterJob s j) j o).jobs, _
        rw [h2]; exact fun x hx => h.fresh x (hsub x hx)
      · show ∀ x ∈ (publish cfg (afterJob s j) j o).jobs, _
        rw [h2]; exact fun x hx => h.job x (hsub x hx)
      · show ∀ k e, (publish cfg (afterJob s j) j o).entries.get k = some e → _
        rw [h1]; exact fun k e hk => h.entry k e (key k e hk)
      · show ∀ k p, (publish cfg (afterJob s j) j o).resident.get k = some p → _
        rcases h11 with ⟨h11, _⟩ | ⟨kd, h11, _⟩
        · rw [h11]; exact h.resident
        · rw [h11]
          intro k p hp
          rw [AMap.get_insert] at hp
          split at hp
          · rename_i hkk
            simp only [Option.some.injEq] at hp
            subst hp; subst hkk; exact hnew
          · exact h.resident k p hp
      · show cfg.hasStore = true → ∀ k p, (publish cfg (afterJob s j) j o).persisted.get k = some p → _
        intro hs
        rcases h12 with h12 | h12
        · rw [h12]; exact h.stored hs
        · rw [h12]
          intro k p hp
          rw [AMap.get_insert] at hp
          split at hp
          · rename_i hkk
            simp only [Option.some.injEq] at hp
            subst hp; subst hkk; exact hnew
          · exact h.stored hs k p hp
  | idle k =>
    obtain ⟨h1, h2, h3, h4, h5, h6, h7, _⟩ := removeEntry_frame (removeResident s k) k
    refine src_evict h h6 h5 h3 ?_ ?_ h7
    · intro q e hq
      have hq' : (removeEntry (removeResident s k) k).entries.get q = some e := hq
      rw [removeEntry_entries] at hq'
      split at hq'
      · cases hq'
      · exact hq'
    · intro q p hq
      rw [evictIdle_resident] at hq
      split at hq
      · cases hq
      · exact hq
  | lru k =>
    obtain ⟨h1, h2, h3, h4, h5, h6, h7, _⟩ := removeEntry_frame (removeResident s k) k
    refine src_evict h h6 h5 h3 ?_ ?_ h7
    · intro q e hq
      have hq' : (removeEntry (removeResident s k) k).entries.get q = some e := hq
      rw [removeEntry_entries] at hq'
      split at hq'
      · cases hq'
      · exact hq'
    · intro q p hq
      rw [evictLru_resident] at hq
      split at hq
      · cases hq
      · exact hq
  | cold idle =>
    refine src_evict h rfl rfl rfl ?_ (fun _ _ hq => hq) rfl
    intro q e hq
    simp only [sweepCold] at hq
    rw [AMap.get_filter hi.entriesNodup, Option.filter_eq_some_iff] at hq
    exact hq.1
  | start i =>
    refine ⟨h.next, h.gen, ?_, ?_, h.entry, h.resident, h.stored⟩
    · intro x hx hg
      obtain ⟨y, hy, rfl⟩ := List.mem_map.mp hx
      have := h.fresh y hy
      split at hg <;> split <;> first | exact this hg | contradiction
    · intro x hx
      obtain ⟨y, hy, rfl⟩ := List.mem_map.mp hx
      have := h.job y hy
      split <;> exact this
  | close hcl =>
    exact ⟨h.next, h.gen, h.fresh, h.job, fun k e hk => by simp [shutdown, AMap.get] at hk, h.resident, h.stored⟩

end Verif.Backend
