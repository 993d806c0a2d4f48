import Verif.Lemmas.BackendSteps
/-!
# Lemmas: the trace of a backend history
-/

namespace Verif.Backend

theorem atDispatch_nil (P : Nat → Key → Mode → List Act → Prop) : AtDispatch P [] := by
  intro newer i k m older h
  cases newer <;> cases h

theorem atDispatch_cons {P : Nat → Key → Mode → List Act → Prop} {a : Act} {t : List Act}
    (h : AtDispatch P t) (ha : ∀ i k m, a = .dispatch i k m → P i k m t) : AtDispatch P (a :: t) := by
  intro newer i k m older he
  cases newer with
  | nil =>
    simp only [List.nil_append, List.cons.injEq] at he
    obtain ⟨h1, rfl⟩ := he
    exact ha i k m h1
  | cons b r =>
    simp only [List.cons_append, List.cons.injEq] at he
    exact h r i k m older he.2

/-- Small steps add at most one action; this says which. -/
theorem trace_micro {cfg : Config} {H : Hist} {c : Notifier} {s t : State} (m : Micro cfg H c s t) :
    t.trace = s.trace ∨ ∃ a, t.trace = a :: s.trace := by
  cases m with
  | misc => exact .inl rfl
  | storeClear => exact .inl rfl
  | refuse n => rw [release_eq]; exact .inl rfl
  | load => exact .inl rfl
  | track k code mode hr he =>
    simp only [ensureEntry, he]; exact .inr ⟨_, rfl⟩
  | wait k e n mode => cases mode <;> simp
  | heat => exact .inr ⟨_, rfl⟩
  | touch => exact .inl rfl
  | dispatch => exact .inr ⟨_, rfl⟩
  | clear => exact .inr ⟨_, rfl⟩
  | result j o hj =>
    rw [handleResult_eq]; split <;> exact .inr ⟨_, rfl⟩
  | idle k =>
    have := (removeEntry_frame (removeResident s k) k).2.2.2.2.2.2.2.2.1
    refine .inr ⟨.idleEvict k, ?_⟩
    simp only [evictIdle]
    rw [this]; rfl
  | lru k =>
    have := (removeEntry_frame (removeResident s k) k).2.2.2.2.2.2.2.2.1
    refine .inl ?_
    simp only [evictLru]
    rw [this]; rfl
  | cold => exact .inl rfl
  | start => exact .inl rfl
  | close => exact .inl rfl
  | abandon => exact .inl rfl

theorem evictIdle_trace (s : State) (k : Key) : (evictIdle s k).trace = .idleEvict k :: s.trace := by
  have := (removeEntry_frame (removeResident s k) k).2.2.2.2.2.2.2.2.1
  simp only [evictIdle]
  rw [this]; rfl

theorem evictLru_trace (s : State) (k : Key) : (evictLru s k).trace = s.trace :=
  (removeEntry_frame (removeResident s k) k).2.2.2.2.2.2.2.2.1

/-! ## Jobs -/

def pair (j : Job) : Nat × Key := (j.id, j.key)

theorem filter_pair (l : List Job) (i : Nat) :
    (l.filter (·.id ≠ i)).map pair = (l.map pair).filter (·.1 ≠ i) := by
  rw [List.filter_map]; rfl

theorem start_pair (l : List Job) (i : Nat) :
    (l.map fun j => if j.id = i then { j with queued := false } else j).map pair = l.map pair := by
  rw [List.map_map]
  apply List.map_congr_left
  intro j _
  simp only [Function.comp]
  split <;> rfl

/-- Jobs of the current generation. -/
def current (s : State) : List Job := s.jobs.filter fun j => j.generation = s.generation

/-- The jobs are exactly the compilations in flight according to the trace; the same within the current
generation; and the statistics counters. -/
structure TInv (s : State) : Prop where
  jobs : s.jobs.map pair = inFlight s.trace
  now : (current s).map pair = inFlight (sinceClear s.trace)
  counters : s.stats.dispatched = s.stats.succeeded + s.stats.failed + s.jobs.length + discarded s.trace

theorem tinv_init (pre per : AMap Key Program) : TInv (init pre per) := ⟨rfl, rfl, rfl⟩

theorem tinv_of_eq {s t : State} (h : TInv s) (h1 : t.jobs = s.jobs) (h2 : t.generation = s.generation)
    (h3 : inFlight t.trace = inFlight s.trace)
    (h4 : inFlight (sinceClear t.trace) = inFlight (sinceClear s.trace))
    (h5 : discarded t.trace = discarded s.trace)
    (h6 : t.stats.dispatched = s.stats.dispatched) (h7 : t.stats.succeeded = s.stats.succeeded)
    (h8 : t.stats.failed = s.stats.failed) : TInv t := by
  refine ⟨?_, ?_, ?_⟩
  · rw [h1, h3, h.jobs]
  · rw [h4, ← h.now]; simp only [current, h1, h2]
  · rw [h6, h7, h8, h1, h5, h.counters]

theorem filter_swap (l : List Job) (p q : Job → Bool) : (l.filter p).filter q = (l.filter q).filter p := by
  rw [List.filter_filter, List.filter_filter]
  congr 1
  funext j
  exact Bool.and_comm _ _

theorem tinv_micro {cfg : Config} {H : Hist} (c : Notifier) (s t : State) (hi : Inv cfg H s) (h : TInv s)
    (m : Micro cfg H c s t) : TInv t := by
  cases m with
  | misc st ev now ls hits hd hs hf hk hev => exact tinv_of_eq h rfl rfl rfl rfl rfl hd hs hf
  | storeClear => exact tinv_of_eq h rfl rfl rfl rfl rfl rfl rfl rfl
  | refuse n => rw [release_eq]; exact tinv_of_eq h rfl rfl rfl rfl rfl rfl rfl rfl
  | load => exact tinv_of_eq h rfl rfl rfl rfl rfl rfl rfl rfl
  | track k code mode hr he =>
    simp only [ensureEntry, he]; exact tinv_of_eq h rfl rfl rfl rfl rfl rfl rfl rfl
  | wait k e n mode =>
    cases mode <;> exact tinv_of_eq h rfl rfl rfl rfl rfl rfl rfl rfl
  | heat => exact tinv_of_eq h rfl rfl rfl rfl rfl rfl rfl rfl
  | touch => exact tinv_of_eq h rfl rfl rfl rfl rfl rfl rfl rfl
  | dispatch kind k e n mode =>
    refine ⟨?_, ?_, ?_⟩
    · simp only [List.map_append, h.jobs]; rfl
    · simp only [current, List.filter_append, List.map_append, sinceClear]
      have := h.now
      simp only [current] at this
      rw [this]
      simp [inFlight, pair]
    · simp only [List.length_append, List.length_cons, List.length_nil, discarded]
      have := h.counters
      omega
  | clear =>
    simp only [clearResident, releaseAll_eq]
    refine ⟨h.jobs, ?_, h.counters⟩
    simp only [current, sinceClear, inFlight]
    rw [List.map_eq_nil_iff, List.filter_eq_nil_iff]
    intro j hj
    have := hi.gens j hj
    simp only [decide_eq_true_eq]; omega
  | result j o hj =>
    have hlen := filter_id_length hi.idsNodup hj
    have hcnt := h.counters
    have hnow : ((s.jobs.filter (·.id ≠ j.id)).filter fun x => decide (x.generation = s.generation)).map pair =
        (inFlight (sinceClear s.trace)).filter (·.1 ≠ j.id) := by
      rw [filter_swap, filter_pair, ← h.now]; rfl
    rw [handleResult_eq]
    split
    · refine ⟨?_, ?_, ?_⟩
      · show (s.jobs.filter (·.id ≠ j.id)).map pair = _
        rw [filter_pair, h.jobs]; rfl
      · exact hnow
      · show s.stats.dispatched = s.stats.succeeded + s.stats.failed + (s.jobs.filter (·.id ≠ j.id)).length +
          (discarded s.trace + 1)
        omega
    · obtain ⟨_, h2, _, h4, _, _, _, _, h9, _, h11, _⟩ := publish_shape cfg (afterJob s j) j o
      refine ⟨?_, ?_, ?_⟩
      · show (publish cfg (afterJob s j) j o).jobs.map pair = _
        rw [h2]
        show (s.jobs.filter (·.id ≠ j.id)).map pair = _
        rw [filter_pair, h.jobs]; rfl
      · simp only [current]
        rw [h2, h4]
        exact hnow
      · simp only [discarded]
        rw [h2, h9]
        have e1 : (afterJob s j).stats = s.stats := rfl
        have e2 : (afterJob s j).jobs = s.jobs.filter (·.id ≠ j.id) := rfl
        rw [e1] at h11 ⊢
        rw [e2]
        rcases h11 with ⟨_, _, ha, hb⟩ | ⟨_, _, _, ha, hb⟩ <;> rw [ha, hb] <;> omega
  | idle k =>
    obtain ⟨h1, h2, h3, h4, h5, h6, h7, h8, h9, _⟩ := removeEntry_frame (removeResident s k) k
    have ht := evictIdle_trace s k
    refine tinv_of_eq h h3 h5 ?_ ?_ ?_ ?_ ?_ ?_
    · rw [ht]; rfl
    · rw [ht]; rfl
    · rw [ht]; rfl
    · simp only [evictIdle, h8]; rfl
    · simp only [evictIdle, h8]; rfl
    · simp only [evictIdle, h8]; rfl
  | lru k =>
    obtain ⟨h1, h2, h3, h4, h5, h6, h7, h8, h9, _⟩ := removeEntry_frame (removeResident s k) k
    have ht := evictLru_trace s k
    refine tinv_of_eq h h3 h5 ?_ ?_ ?_ ?_ ?_ ?_
    · rw [ht]
    · rw [ht]
    · rw [ht]
    · simp only [evictLru, h8]; rfl
    · simp only [evictLru, h8]; rfl
    · simp only [evictLru, h8]; rfl
  | cold => exact tinv_of_eq h rfl rfl rfl rfl rfl rfl rfl rfl
  | start i =>
    refine ⟨?_, ?_, ?_⟩
    · rw [start_pair]; exact h.jobs
    · show (((s.jobs.map fun j => if j.id = i then { j with queued := false } else j).filter
        fun x => decide (x.generation = s.generation)).map pair) = _
      rw [List.filter_map, List.map_map]
      show _ = inFlight (sinceClear s.trace)
      rw [← h.now]
      have : (s.jobs.filter ((fun x => decide (x.generation = s.generation)) ∘
          fun j => if j.id = i then { j with queued := false } else j)) = current s := by
        unfold current
        congr 1
        funext j
        simp only [Function.comp]
        split <;> rfl
      rw [this]
      apply List.map_congr_left
      intro j _
      simp only [Function.comp]
      split <;> rfl
    · simpa using h.counters
  | close => exact tinv_of_eq h rfl rfl rfl rfl rfl rfl rfl rfl
  | abandon => exact tinv_of_eq h rfl rfl rfl rfl rfl rfl rfl rfl

/-! ## One compilation per key -/

/-- Without disturbance, a key with a compilation in flight has a working entry, and there is at most one
such compilation. -/
def SInv (s : State) : Prop :=
  s.closed = true ∨ ∀ k, undisturbed k (sinceClear s.trace) = true →
    (∀ i, (i, k) ∈ inFlight (sinceClear s.trace) →
      ∃ e, s.entries.get k = some e ∧ e.phase = .working) ∧
    ∀ i i', (i, k) ∈ inFlight (sinceClear s.trace) → (i', k) ∈ inFlight (sinceClear s.trace) → i = i'

theorem sinv_mono {s t : State} (h : SInv s) (hc : t.closed = s.closed)
    (hu : ∀ k, undisturbed k (sinceClear t.trace) = true → undisturbed k (sinceClear s.trace) = true)
    (hf : ∀ p, p ∈ inFlight (sinceClear t.trace) → p ∈ inFlight (sinceClear s.trace))
    (he : ∀ k e, undisturbed k (sinceClear t.trace) = true → s.entries.get k = some e → e.phase = .working →
      (∃ i, (i, k) ∈ inFlight (sinceClear t.trace)) →
      ∃ e', t.entries.get k = some e' ∧ e'.phase = .working) : SInv t := by
  rcases h with h | h
  · exact .inl (by rw [hc]; exact h)
  · refine .inr fun k hk => ?_
    obtain ⟨h1, h2⟩ := h k (hu k hk)
    refine ⟨fun i hi => ?_, fun i i' hi hi' => h2 i i' (hf _ hi) (hf _ hi')⟩
    obtain ⟨e, h3, h4⟩ := h1 i (hf _ hi)
    exact he k e hk h3 h4 ⟨i, hi⟩

theorem sinv_same {s t : State} (h : SInv s) (hc : t.closed = s.closed)
    (ht : ∀ k, undisturbed k (sinceClear t.trace) = undisturbed k (sinceClear s.trace))
    (hf : inFlight (sinceClear t.trace) = inFlight (sinceClear s.trace))
    (he : ∀ k e, s.entries.get k = some e → e.phase = .working →
      ∃ e', t.entries.get k = some e' ∧ e'.phase = .working) : SInv t :=
  sinv_mono h hc (fun k hk => by rw [← ht]; exact hk) (fun p hp => by rw [← hf]; exact hp)
    (fun k e _ h1 h2 _ => he k e h1 h2)

theorem update_working {m : AMap Key Entry} {k : Key} (f : Entry → Entry)
    (hf : ∀ e, (f e).phase = e.phase) (q : Key) (e : Entry)
    (hq : m.get q = some e) (hw : e.phase = .working) :
    ∃ e', (m.update k f).get q = some e' ∧ e'.phase = .working := by
  rw [AMap.get_update]
  split
  · rename_i hqk
    subst hqk
    rw [hq]
    exact ⟨f e, rfl, by rw [hf]; exact hw⟩
  · exact ⟨e, hq, hw⟩

theorem sinv_micro {cfg : Config} {H : Hist} (c : Notifier) (s t : State) (hi : Inv cfg H s) (ht : TInv s)
    (h : SInv s) (m : Micro cfg H c s t) : SInv t := by
  have same : ∀ k e, s.entries.get k = some e → e.phase = .working →
      ∃ e', s.entries.get k = some e' ∧ e'.phase = .working := fun k e h1 h2 => ⟨e, h1, h2⟩
  cases m with
  | misc => exact sinv_same h rfl (fun _ => rfl) rfl same
  | storeClear => exact sinv_same h rfl (fun _ => rfl) rfl same
  | refuse n => rw [release_eq]; exact sinv_same h rfl (fun _ => rfl) rfl same
  | load => exact sinv_same h rfl (fun _ => rfl) rfl same
  | abandon => exact sinv_same h rfl (fun _ => rfl) rfl same
  | start => exact sinv_same h rfl (fun _ => rfl) rfl same
  | close => exact .inl rfl
  | track k code mode hr he =>
    simp only [ensureEntry, he]
    refine sinv_same h rfl (fun _ => rfl) rfl ?_
    intro q e hq hw
    refine ⟨e, ?_, hw⟩
    simp only [AMap.get_insert]
    rw [if_neg]
    · exact hq
    · intro hqk; rw [hqk, he] at hq; cases hq
  | wait k e n mode he hp hn =>
    refine sinv_same h rfl ?_ ?_ (update_working (fun e => { e with lastObserved := s.now, waiters := e.waiters ++ [c] }) fun _ => rfl)
    · cases mode <;> exact fun _ => rfl
    · cases mode <;> rfl
  | heat k e =>
    exact sinv_same h rfl (fun _ => rfl) rfl (update_working
      (fun e => { e with lastObserved := s.now, hotness := min (e.hotness + 1) U32_MAX }) fun _ => rfl)
  | touch k e =>
    exact sinv_same h rfl (fun _ => rfl) rfl (update_working
      (fun e => { e with lastObserved := s.now }) fun _ => rfl)
  | dispatch kind k e n mode he hp hr hm ha hh hcl hn =>
    rcases h with h | h
    · rw [h] at hcl; cases hcl
    refine .inr fun q hq => ?_
    obtain ⟨h1, h2⟩ := h q hq
    have hmem : ∀ i, (i, q) ∈ inFlight (sinceClear (Act.dispatch s.nextJob k mode :: s.trace)) →
        (i, q) ∈ inFlight (sinceClear s.trace) ∨ (i = s.nextJob ∧ q = k) := by
      intro i hi'
      simp only [sinceClear, inFlight, List.mem_append, List.mem_singleton, Prod.mk.injEq] at hi'
      exact hi'
    have hno : q = k → ∀ i, (i, q) ∉ inFlight (sinceClear s.trace) := by
      intro hqk i hin
      obtain ⟨e', h3, h4⟩ := h1 i hin
      rw [hqk, he] at h3
      simp only [Option.some.injEq] at h3
      rw [← h3, hp] at h4; cases h4
    constructor
    · intro i hin
      show ∃ e', (s.entries.update k fun e => { e with phase := .working }).get q = some e' ∧ _
      rw [AMap.get_update]
      split
      · rename_i hqk
        rw [hqk, he]; exact ⟨_, rfl, rfl⟩
      · rename_i hqk
        rcases hmem i hin with h3 | h3
        · exact h1 i h3
        · exact absurd h3.2 hqk
    · intro i i' hin hin'
      rcases hmem i hin with h3 | h3 <;> rcases hmem i' hin' with h4 | h4
      · exact h2 i i' h3 h4
      · exact absurd h3 (hno h4.2 i)
      · exact absurd h4 (hno h3.2 i')
      · rw [h3.1, h4.1]
  | clear =>
    refine .inr fun q hq => ?_
    have : ∀ p, p ∉ inFlight (sinceClear (clearResident s).trace) := by
      intro p hp
      simp [clearResident, sinceClear, inFlight] at hp
    exact ⟨fun i hin => absurd hin (this _), fun i i' hin => absurd hin (this _)⟩
  | result j o hj hcl =>
    have hjn := ht.now
    have herase : ∀ (q : Key) (e : Entry), q ≠ j.key → s.entries.get q = some e → e.phase = .working →
        ∃ e', ((s.entries.update j.key fun e => { e with waiters := [] }).erase j.key).get q = some e' ∧
          e'.phase = .working := by
      intro q e hne hq hw
      rw [AMap.get_erase, if_neg hne, AMap.get_update, if_neg hne]
      exact ⟨e, hq, hw⟩
    rw [handleResult_eq]
    split
    · refine sinv_mono h rfl ?_ ?_ ?_
      · intro k hk
        simp only [sinceClear, undisturbed, Bool.and_eq_true] at hk
        exact hk.2
      · intro p hp
        simp only [sinceClear, inFlight] at hp
        exact (List.mem_filter.mp hp).1
      · intro k e hk he hw _
        simp only [sinceClear, undisturbed, Bool.and_eq_true, decide_eq_true_eq] at hk
        exact herase k e (fun hh => hk.1 hh.symm) he hw
    · rename_i hgen
      have hgen : j.generation = s.generation := by simpa using hgen
      obtain ⟨h1, _, _, _, _, _, _, _, _, h10, _⟩ := publish_shape cfg (afterJob s j) j o
      refine sinv_mono h h10 ?_ ?_ ?_
      · intro k hk; exact hk
      · intro p hp
        simp only [sinceClear, inFlight] at hp
        exact (List.mem_filter.mp hp).1
      · intro k e hk he hw hin
        have hne : k ≠ j.key := by
          intro hkj
          obtain ⟨i, hin⟩ := hin
          simp only [sinceClear, inFlight, List.mem_filter, decide_eq_true_eq] at hin
          have hjmem : (j.id, j.key) ∈ inFlight (sinceClear s.trace) := by
            rw [← hjn]
            exact List.mem_map.mpr ⟨j, List.mem_filter.mpr ⟨hj, by simpa using hgen⟩, rfl⟩
          rcases h with h | h
          · rw [h] at hcl; cases hcl
          · exact hin.2 ((h k hk).2 i j.id hin.1 (by rw [hkj]; exact hjmem))
        show ∃ e', (publish cfg (afterJob s j) j o).entries.get k = some e' ∧ _
        rw [h1]
        exact herase k e hne he hw
  | idle k hid hr =>
    have htr := evictIdle_trace s k
    have hcl : (evictIdle s k).closed = s.closed :=
      (removeEntry_frame (removeResident s k) k).2.2.2.2.2.2.2.2.2.2.2.2
    refine sinv_mono h hcl ?_ ?_ ?_
    · intro q hq
      rw [htr] at hq
      simp only [sinceClear, undisturbed, Bool.and_eq_true] at hq
      exact hq.2
    · intro p hp; rw [htr] at hp; exact hp
    · intro q e hq he hw _
      rw [htr] at hq
      simp only [sinceClear, undisturbed, Bool.and_eq_true, decide_eq_true_eq] at hq
      refine ⟨e, ?_, hw⟩
      show (removeEntry (removeResident s k) k).entries.get q = _
      rw [removeEntry_entries, if_neg fun hh => hq.1 hh.symm]
      exact he
  | lru k p hr hk =>
    have htr := evictLru_trace s k
    have hcl : (evictLru s k).closed = s.closed :=
      (removeEntry_frame (removeResident s k) k).2.2.2.2.2.2.2.2.2.2.2.2
    refine sinv_same h hcl (fun _ => by rw [htr]) (by rw [htr]) ?_
    intro q e he hw
    refine ⟨e, ?_, hw⟩
    show (removeEntry (removeResident s k) k).entries.get q = _
    rw [removeEntry_entries, if_neg]
    · exact he
    · intro hqk
      subst hqk
      have := hi.jitDone q p e hr hk he
      rw [hw] at this; cases this
  | cold idle =>
    refine sinv_same h rfl (fun _ => rfl) rfl ?_
    intro q e he hw
    refine ⟨e, ?_, hw⟩
    simp only [sweepCold]
    rw [AMap.get_filter hi.entriesNodup, he]
    simp [Option.filter, hw]

/-- What the trace says about a second dispatch for a key. -/
def OnlyOne (_ : Nat) (k : Key) (_ : Mode) (older : List Act) : Prop :=
  undisturbed k (sinceClear older) = true → ∀ i, (i, k) ∉ inFlight (sinceClear older)

theorem onlyOne_micro {cfg : Config} {H : Hist} (c : Notifier) (s t : State) (h : SInv s)
    (ha : AtDispatch OnlyOne s.trace) (m : Micro cfg H c s t) : AtDispatch OnlyOne t.trace := by
  rcases trace_micro m with heq | ⟨a, heq⟩
  · rw [heq]; exact ha
  · rw [heq]
    refine atDispatch_cons ha ?_
    intro i k mode hd
    subst hd
    cases m with
    | dispatch kind q e n md he hp hr hm hpa hh hcl hn =>
      simp only [List.cons.injEq, Act.dispatch.injEq, and_true] at heq
      obtain ⟨_, rfl, rfl⟩ := heq
      intro hu i' hin
      rcases h with h | h
      · rw [h] at hcl; cases hcl
      · obtain ⟨e', h1, h2⟩ := (h q hu).1 i' hin
        rw [he] at h1
        simp only [Option.some.injEq] at h1
        rw [← h1, hp] at h2; cases h2
    | misc => exact absurd heq (by simp)
    | storeClear => exact absurd heq (by simp)
    | refuse n => rw [release_eq] at heq; exact absurd heq (by simp)
    | load => exact absurd heq (by simp [insertResident])
    | track q code mode hr he =>
      simp [ensureEntry, he] at heq
    | wait q e n mode => cases mode <;> simp at heq
    | heat => simp at heq
    | touch => exact absurd heq (by simp)
    | clear => simp [clearResident] at heq
    | result j o hj => rw [handleResult_eq] at heq; split at heq <;> simp at heq
    | idle q => rw [evictIdle_trace] at heq; simp at heq
    | lru q => rw [evictLru_trace] at heq; exact absurd heq (by simp)
    | cold => exact absurd heq (by simp [sweepCold])
    | start => exact absurd heq (by simp)
    | close => exact absurd heq (by simp [shutdown, abandonAll])
    | abandon => exact absurd heq (by simp [abandonAll])

end Verif.Backend
