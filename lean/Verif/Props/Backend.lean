import Verif.Spec.Backend
import Verif.Lemmas.BackendTrace
import Verif.Lemmas.BackendHot
import Verif.Lemmas.BackendSource
/-!
# Properties: lookups, in-flight jobs, clears, statistics and hotness (C26–C31)
-/

namespace Verif.Backend

/-- The callers' history as the invariants use it. -/
def histOf (evs : List Ev) : Hist := ⟨Submitted evs, fun k c => ∃ e ∈ evs, asksFor e k c⟩

theorem allows_histOf (evs : List Ev) : ∀ e ∈ evs, Allows (histOf evs) e :=
  fun e he => ⟨fun _ hx => ⟨e, he, hx⟩, fun _ _ hk => ⟨e, he, hk⟩⟩

theorem inv_history {cfg : Config} {pre per : AMap Key Program} (hs : GoodStart pre per) (evs : List Ev) :
    Inv cfg (histOf evs) (run cfg (init pre per) evs) :=
  inv_run (inv_init cfg _ hs) evs (allows_histOf evs)

theorem history_inv {cfg : Config} {pre per : AMap Key Program} (hs : GoodStart pre per) (evs : List Ev)
    {P : State → Prop} (h0 : P (init pre per))
    (hP : ∀ c s t, Inv cfg (histOf evs) s → P s → Micro cfg (histOf evs) c s t → P t) :
    P (run cfg (init pre per) evs) :=
  run_inv hP (inv_init cfg _ hs) h0 evs (allows_histOf evs)

theorem tinv_history {cfg : Config} {pre per : AMap Key Program} (hs : GoodStart pre per) (evs : List Ev) :
    TInv (run cfg (init pre per) evs) :=
  history_inv hs evs (tinv_init pre per) tinv_micro

/-! ## A concrete backend for the examples -/

/-- Two kinds of key, small limits. -/
def exCfg : Config :=
  { aot := false, hasStore := true, hotThreshold := 2, maxPending := 2, maxCodeLen := 4, hasWorkers := true,
    queueCapacity := 2, eventCapacity := 8, idle := some 5, budget := 10, sweepInterval := 1 }

def exA : Key := ⟨1, 0⟩
def exB : Key := ⟨2, 0⟩

/-- `exA` looked up twice, compiled in the background, and published. -/
def exRun : List Ev :=
  [.lookup true false exA [1], .drain true, .lookup true false exA [1], .drain true, .start 0, .result 0 .jit]

theorem goodStart_nil : GoodStart [] [] :=
  ⟨AMap.nodup_nil, ⟨fun _ _ h => by simp [AMap.get] at h, fun _ _ h => by simp [AMap.get] at h⟩⟩

/-! ## C26 -/

theorem shouldCompile_iff (cfg : Config) (code : Code) : shouldCompile cfg code = true ↔ Eligible cfg code := by
  unfold shouldCompile Eligible
  cases code with
  | nil => simp
  | cons a r =>
    simp only [List.isEmpty_cons, Bool.false_eq_true, if_false]
    split
    · rename_i h
      simp only [Bool.and_eq_true, decide_eq_true_eq] at h
      constructor
      · intro h'; cases h'
      · rintro ⟨_, h1 | h1⟩ <;> omega
    · rename_i h
      simp only [Bool.and_eq_true, decide_eq_true_eq] at h
      refine ⟨fun _ => ⟨by simp, ?_⟩, fun _ => rfl⟩
      omega

/-- C26: which answer a lookup gives. A compiled program is returned only for an enabled backend, eligible
code, and a program that is resident under the requested key. -/
theorem C26_decision (cfg : Config) (en locked : Bool) (s : State) (k : Key) (code : Code) :
    (lookup cfg en locked s k code = .disabled ↔ en = false) ∧
    (lookup cfg en locked s k code = .ineligible ↔ en = true ∧ ¬ Eligible cfg code) ∧
    (∀ p, lookup cfg en locked s k code = .compiled p ↔
      en = true ∧ Eligible cfg code ∧ locked = false ∧ s.resident.get k = some p) ∧
    (lookup cfg en locked s k code = .notReady ↔
      en = true ∧ Eligible cfg code ∧ (locked = true ∨ s.resident.get k = none)) ∧
    lookup cfg en locked s k code ≠ .jitFailed := by
  have he := shouldCompile_iff cfg code
  unfold lookup
  cases en with
  | false => simp
  | true =>
    cases hc : shouldCompile cfg code with
    | false =>
      have : ¬ Eligible cfg code := fun h => by rw [he.mpr h] at hc; cases hc
      simp [this]
    | true =>
      have := he.mp hc
      cases locked with
      | true => simp [this]
      | false =>
        cases hr : s.resident.get k with
        | none => simp [this]
        | some p =>
          refine ⟨by simp, by simp [this], ?_, by simp, by simp⟩
          intro q
          simp [this]

/-- A program seen by lookups: loaded from the artifacts found at start-up under this key, or compiled from
code some caller submitted under this key. -/
def BuiltFor (pre per : AMap Key Program) (evs : List Ev) (k : Key) (code : Code) (o : Origin) : Prop :=
  (o = .preloaded ∧ ((∃ q, pre.get k = some q ∧ q.code = code) ∨ ∃ q, per.get k = some q ∧ q.code = code)) ∨
  ((∃ i, o = .job i) ∧ Submitted evs k code)

theorem builtFor_history {cfg : Config} {pre per : AMap Key Program} (hs : GoodStart pre per) (evs : List Ev) :
    Src cfg (histOf evs) 0 0 (BuiltFor pre per evs) (run cfg (init pre per) evs) := by
  refine history_inv hs evs ?_ (src_micro ?_)
  · refine ⟨Nat.zero_le _, Nat.zero_le _, ?_, ?_, ?_, ?_, ?_⟩
    · intro j hj; simp [init] at hj
    · intro j hj; simp [init] at hj
    · intro k e he; simp [init, AMap.get] at he
    · intro k p hp
      exact .inl ⟨(hs.2.1 k p hp).2.2, .inl ⟨p, hp, rfl⟩⟩
    · intro _ k p hp
      exact .inl ⟨hs.2.2 k p hp, .inr ⟨p, hp, rfl⟩⟩
  · intro k code i hc _
    exact .inr ⟨⟨i, rfl⟩, hc⟩

/-- C26: for every history of lookups, requests, results, clears and sweeps, the program a lookup returns
was built for exactly the requested hash and fork. -/
theorem C26_own_program {cfg : Config} {pre per : AMap Key Program} (hs : GoodStart pre per) (evs : List Ev)
    (en locked : Bool) (k : Key) (code : Code) (p : Program)
    (h : lookup cfg en locked (run cfg (init pre per) evs) k code = .compiled p) :
    p.key = k ∧ BuiltFor pre per evs k p.code p.origin := by
  have hr := (((C26_decision cfg en locked _ k code).2.2.1 p).mp h).2.2.2
  exact ⟨(inv_history hs evs).residentKey k p hr, (builtFor_history hs evs).resident k p hr⟩

/-- C26 in blocking mode: `evs2` is what the backend does between the two probes. -/
theorem C26_blocking {cfg : Config} {pre per : AMap Key Program} (hs : GoodStart pre per) (evs evs2 : List Ev)
    (en : Bool) (answer : Option Unit) (k : Key) (code : Code) (p : Program)
    (h : lookupBlocking cfg en (run cfg (init pre per) evs) (run cfg (init pre per) (evs ++ evs2)) answer k code =
      .compiled p) :
    en = true ∧ Eligible cfg code ∧ p.key = k ∧ BuiltFor pre per (evs ++ evs2) k p.code p.origin := by
  have he := shouldCompile_iff cfg code
  unfold lookupBlocking at h
  split at h
  · cases h
  · rename_i hen
    split at h
    · cases h
    · rename_i hc
      refine ⟨by simpa using hen, he.mp (by simpa using hc), ?_⟩
      have weaken : ∀ o c, BuiltFor pre per evs k c o → BuiltFor pre per (evs ++ evs2) k c o := by
        rintro o c (h1 | ⟨h1, e, he, hx⟩)
        · exact .inl h1
        · exact .inr ⟨h1, e, List.mem_append.mpr (.inl he), hx⟩
      split at h
      · rename_i q hq
        simp only [Decision.compiled.injEq] at h
        subst h
        exact ⟨(inv_history hs evs).residentKey k q hq, weaken _ _ ((builtFor_history hs evs).resident k q hq)⟩
      · split at h
        · cases h
        · split at h
          · rename_i q hq
            simp only [Decision.compiled.injEq] at h
            subst h
            exact ⟨(inv_history hs (evs ++ evs2)).residentKey k q hq,
              (builtFor_history hs (evs ++ evs2)).resident k q hq⟩
          · cases h

/-- `exRun` makes `exA` visible, and only `exA`. -/
example : lookup exCfg true false (run exCfg (init [] []) exRun) exA [1] = .compiled ⟨exA, .jit, [1], .job 0⟩ ∧
    lookup exCfg true false (run exCfg (init [] []) exRun) exB [1] = .notReady ∧
    lookup exCfg true false (run exCfg (init [] []) exRun) exA [1, 2, 3, 4, 5] = .ineligible := by decide

/-! ## C27 -/

/-- C27: the number of compilations in flight is the backend's counter and at most the configured maximum,
and the workers' queue stays within its capacity. -/
theorem C27_bounded {cfg : Config} {pre per : AMap Key Program} (hs : GoodStart pre per) (evs : List Ev) :
    let s := run cfg (init pre per) evs
    s.pendingJobs = (inFlight s.trace).length ∧ (inFlight s.trace).length ≤ cfg.maxPending ∧
    (s.jobs.filter (·.queued)).length ≤ cfg.queueCapacity := by
  have hi := inv_history (cfg := cfg) hs evs
  have ht := tinv_history (cfg := cfg) hs evs
  have hl : (inFlight (run cfg (init pre per) evs).trace).length = (run cfg (init pre per) evs).jobs.length := by
    rw [← ht.jobs, List.length_map]
  simp only
  rw [hl]
  exact ⟨hi.pending, hi.bound, hi.queue⟩

/-- The bound is attained: two jobs in flight, and a third request is refused. -/
example :
    let s := run exCfg (init [] []) [.compileJit exA [1] (some 7) true, .compileJit exB [2] (some 8) true,
      .compileJit ⟨3, 0⟩ [3] (some 9) true]
    (inFlight s.trace) = [(0, exA), (1, exB)] ∧ s.pendingJobs = 2 ∧ s.released = [9] := by decide

/-! ## C28 -/

/-- The claim: within a generation, a key is never handed to the workers while it is in flight. -/
def SingleFlight (t : List Act) : Prop :=
  AtDispatch (fun _ k _ older => ∀ i, (i, k) ∉ inFlight (sinceClear older)) t

/-- The history behind the failure of C28: a job is dispatched, a clear empties the maps, the key is
dispatched again, then the old job's late result removes the *new* entry; the next request starts a second
compilation although the first of this generation is still running. -/
def exDouble : List Ev :=
  [.compileJit exA [1] none true, .start 0, .clearResident, .compileJit exA [1] none true, .result 0 .jit,
   .compileJit exA [1] none true]

/-- C28 does not hold of the code: two compilations of one key in flight in one generation. -/
theorem C28_single_flight_fails :
    ¬ ∀ (cfg : Config) (evs : List Ev), SingleFlight (run cfg (init [] []) evs).trace := by
  intro h
  have h1 := h exCfg exDouble
  exact h1 [] 2 exA .explicit [.track exA, .stale 0 exA, .dispatch 1 exA .explicit, .track exA, .cleared,
    .dispatch 0 exA .explicit, .track exA] (by decide) 1 (by decide)

/-- C28, the part that holds: a second compilation of a key is dispatched while one of the same generation
is in flight only if, since the last clear, a late result of an older generation was discarded for that
key or the key was evicted for being idle. Missing from the full claim: these two cases. -/
theorem C28_single_flight_partial {cfg : Config} {pre per : AMap Key Program} (hs : GoodStart pre per)
    (evs : List Ev) :
    AtDispatch (fun _ k _ older => undisturbed k (sinceClear older) = true →
      ∀ i, (i, k) ∉ inFlight (sinceClear older)) (run cfg (init pre per) evs).trace := by
  have h := history_inv (cfg := cfg) hs evs
    (P := fun s => TInv s ∧ SInv s ∧ AtDispatch OnlyOne s.trace)
    ⟨tinv_init pre per, .inr fun k _ => ⟨fun i hi => by simp [init, sinceClear, inFlight] at hi,
      fun i i' hi => by simp [init, sinceClear, inFlight] at hi⟩, atDispatch_nil _⟩
    (fun c s t hi hp m => ⟨tinv_micro c s t hi hp.1 m, sinv_micro c s t hi hp.1 hp.2.1 m,
      onlyOne_micro c s t hp.2.1 hp.2.2 m⟩)
  exact h.2.2

/-- Nothing is discarded as long as nothing was cleared. -/
theorem noStale_micro {cfg : Config} {H : Hist} (c : Notifier) (s t : State)
    (h : .cleared ∈ s.trace ∨ (s.generation = 0 ∧ (∀ j ∈ s.jobs, j.generation = 0) ∧
      ∀ i k, Act.stale i k ∉ s.trace)) (m : Micro cfg H c s t) :
    .cleared ∈ t.trace ∨ (t.generation = 0 ∧ (∀ j ∈ t.jobs, j.generation = 0) ∧
      ∀ i k, Act.stale i k ∉ t.trace) := by
  rcases h with h | ⟨h1, h2, h3⟩
  · left
    rcases trace_micro m with heq | ⟨a, heq⟩
    · rw [heq]; exact h
    · rw [heq]; exact List.mem_cons_of_mem _ h
  · cases m with
    | misc => exact .inr ⟨h1, h2, h3⟩
    | storeClear => exact .inr ⟨h1, h2, h3⟩
    | refuse => rw [release_eq]; exact .inr ⟨h1, h2, h3⟩
    | load => exact .inr ⟨h1, h2, h3⟩
    | abandon => exact .inr ⟨h1, h2, h3⟩
    | close => exact .inr ⟨h1, h2, h3⟩
    | cold => exact .inr ⟨h1, h2, h3⟩
    | touch => exact .inr ⟨h1, h2, h3⟩
    | clear => exact .inl List.mem_cons_self
    | start i =>
      refine .inr ⟨h1, ?_, h3⟩
      intro j hj
      obtain ⟨y, hy, rfl⟩ := List.mem_map.mp hj
      have := h2 y hy
      split <;> exact this
    | track k code mode hr he =>
      simp only [ensureEntry, he]
      exact .inr ⟨h1, h2, fun i k hm => by simp at hm; exact h3 i k hm⟩
    | wait k e n mode =>
      refine .inr ⟨h1, h2, ?_⟩
      cases mode
      · exact fun i k hm => by simp at hm; exact h3 i k hm
      · exact h3
    | heat => exact .inr ⟨h1, h2, fun i k hm => by simp at hm; exact h3 i k hm⟩
    | dispatch kind k e n mode =>
      refine .inr ⟨h1, ?_, fun i k hm => by simp at hm; exact h3 i k hm⟩
      intro j hj
      rcases List.mem_append.mp hj with hj | hj
      · exact h2 j hj
      · rw [List.mem_singleton] at hj; subst hj; exact h1
    | result j o hj =>
      rw [handleResult_eq]
      have hg : ¬ j.generation ≠ s.generation := by rw [h1, h2 j hj]; simp
      rw [if_neg hg]
      obtain ⟨_, e2, _, e4, _⟩ := publish_shape cfg (afterJob s j) j o
      refine .inr ⟨?_, ?_, fun i k hm => by simp at hm; exact h3 i k hm⟩
      · show (publish cfg (afterJob s j) j o).generation = 0
        rw [e4]; exact h1
      · show ∀ x ∈ (publish cfg (afterJob s j) j o).jobs, _
        rw [e2]; exact fun x hx => h2 x (List.mem_filter.mp hx).1
    | idle k =>
      obtain ⟨e1, e2, e3, e4, e5, _⟩ := removeEntry_frame (removeResident s k) k
      refine .inr ⟨e5.trans h1, ?_, ?_⟩
      · show ∀ x ∈ (removeEntry (removeResident s k) k).jobs, _
        rw [e3]; exact h2
      · rw [evictIdle_trace]
        exact fun i k hm => by simp at hm; exact h3 i k hm
    | lru k =>
      obtain ⟨e1, e2, e3, e4, e5, _⟩ := removeEntry_frame (removeResident s k) k
      refine .inr ⟨e5.trans h1, ?_, ?_⟩
      · show ∀ x ∈ (removeEntry (removeResident s k) k).jobs, _
        rw [e3]; exact h2
      · rw [evictLru_trace]; exact h3

/-- Idle evictions happen only with an idle limit. -/
theorem noIdle_micro {cfg : Config} {H : Hist} (hcfg : cfg.idle = none) (c : Notifier) (s t : State)
    (h : ∀ k, Act.idleEvict k ∉ s.trace) (m : Micro cfg H c s t) : ∀ k, Act.idleEvict k ∉ t.trace := by
  rcases trace_micro m with heq | ⟨a, heq⟩
  · rw [heq]; exact h
  · intro q hq
    have hq' := hq
    rw [heq, List.mem_cons] at hq
    rcases hq with hq | hq
    · subst hq
      cases m with
      | idle k hid => rw [hcfg] at hid; cases hid
      | dispatch => simp at heq
      | misc => exact absurd heq (by simp)
      | storeClear => exact absurd heq (by simp)
      | refuse n => rw [release_eq] at heq; exact absurd heq (by simp)
      | load => exact absurd heq (by simp [insertResident])
      | track q code mode hr he => simp [ensureEntry, he] at heq
      | wait q e n mode => cases mode <;> simp at heq
      | heat => simp at heq
      | touch => exact absurd heq (by simp)
      | clear => simp [clearResident] at heq
      | result j o hj => rw [handleResult_eq] at heq; split at heq <;> simp at heq
      | lru q => rw [evictLru_trace] at heq; exact absurd heq (by simp)
      | cold => exact absurd heq (by simp [sweepCold])
      | start => exact absurd heq (by simp)
      | close => exact absurd heq (by simp [shutdown, abandonAll])
      | abandon => exact absurd heq (by simp [abandonAll])
    · exact h q hq

theorem undisturbed_of {k : Key} {t : List Act} (h1 : ∀ i, Act.stale i k ∉ t) (h2 : Act.idleEvict k ∉ t) :
    undisturbed k t = true := by
  induction t with
  | nil => rfl
  | cons a r ih =>
    have ih := ih (fun i h => h1 i (List.mem_cons_of_mem _ h)) (fun h => h2 (List.mem_cons_of_mem _ h))
    cases a with
    | stale i q =>
      have : q ≠ k := fun h => h1 i (by rw [h]; exact List.mem_cons_self)
      simp [undisturbed, this, ih]
    | idleEvict q =>
      have : q ≠ k := fun h => h2 (by rw [h]; exact List.mem_cons_self)
      simp [undisturbed, this, ih]
    | _ => exact ih

theorem sinceClear_sub {t : List Act} {a : Act} (h : a ∈ sinceClear t) : a ∈ t := by
  induction t with
  | nil => exact h
  | cons b r ih =>
    cases b <;> simp only [sinceClear, List.mem_cons, List.not_mem_nil] at h ⊢
    all_goals first
      | exact h.elim
      | exact h.imp id ih

/-- C28 in full for every history without clears on a backend without an idle limit. -/
theorem C28_without_clear_partial {cfg : Config} {pre per : AMap Key Program} (hs : GoodStart pre per)
    (evs : List Ev) (hidle : cfg.idle = none)
    (hclear : Act.cleared ∉ (run cfg (init pre per) evs).trace) :
    SingleFlight (run cfg (init pre per) evs).trace := by
  have h1 := history_inv (cfg := cfg) hs evs
    (P := fun s => (.cleared ∈ s.trace ∨ (s.generation = 0 ∧ (∀ j ∈ s.jobs, j.generation = 0) ∧
      ∀ i k, Act.stale i k ∉ s.trace)) ∧ ∀ k, Act.idleEvict k ∉ s.trace)
    ⟨.inr ⟨rfl, fun j hj => by simp [init] at hj, fun i k h => by simp [init] at h⟩,
      fun k h => by simp [init] at h⟩
    (fun c s t _ hp m => ⟨noStale_micro c s t hp.1 m, noIdle_micro hidle c s t hp.2 m⟩)
  obtain ⟨h1 | ⟨_, _, h1⟩, h2⟩ := h1
  · exact absurd h1 hclear
  · intro newer i k m older heq
    have sub : ∀ {a}, a ∈ sinceClear older → a ∈ (run cfg (init pre per) evs).trace := by
      intro a ha
      rw [heq]
      exact List.mem_append.mpr (.inr (List.mem_cons_of_mem _ (sinceClear_sub ha)))
    exact C28_single_flight_partial hs evs newer i k m older heq
      (undisturbed_of (fun i h => h1 i k (sub h)) (fun h => h2 k (sub h)))

/-- A request for a key in flight waits: no second dispatch, and the caller is not released. -/
example :
    let s := run exCfg (init [] []) [.compileJit exA [1] (some 7) true, .compileJit exA [1] (some 8) true]
    inFlight s.trace = [(0, exA)] ∧ s.released = [] ∧ undisturbed exA (sinceClear s.trace) = true := by decide

/-! ## C29 -/

/-- Job numbers in the trace are below the next one. -/
theorem numbers_micro {cfg : Config} {H : Hist} (c : Notifier) (s t : State)
    (h : ∀ i k m, Act.dispatch i k m ∈ s.trace → i < s.nextJob) (m : Micro cfg H c s t) :
    ∀ i k m, Act.dispatch i k m ∈ t.trace → i < t.nextJob := by
  cases m with
  | misc => exact h
  | storeClear => exact h
  | refuse => rw [release_eq]; exact h
  | load => exact h
  | abandon => exact h
  | close => exact h
  | cold => exact h
  | touch => exact h
  | start => exact h
  | clear => exact fun i k m hm => by simp [clearResident] at hm; unfold clearResident; rw [releaseAll_eq]; exact h i k m hm
  | track k code mode hr he =>
    simp only [ensureEntry, he]
    exact fun i k m hm => by simp at hm; exact h i k m hm
  | wait k e n mode =>
    cases mode
    · exact fun i k m hm => by simp at hm; exact h i k m hm
    · exact h
  | heat => exact fun i k m hm => by simp at hm; exact h i k m hm
  | dispatch kind k e n mode =>
    intro i k m hm
    simp only [List.mem_cons, Act.dispatch.injEq] at hm
    rcases hm with ⟨rfl, _⟩ | hm
    · exact Nat.lt_succ_self _
    · exact Nat.lt_succ_of_lt (h i k m hm)
  | result j o hj =>
    rw [handleResult_eq]
    split
    · exact fun i k m hm => by simp at hm; exact h i k m hm
    · obtain ⟨_, _, _, _, e5, _⟩ := publish_shape cfg (afterJob s j) j o
      intro i k m hm
      simp at hm
      show i < (publish cfg (afterJob s j) j o).nextJob
      rw [e5]; exact h i k m hm
  | idle k =>
    obtain ⟨_, _, _, _, _, e6, _⟩ := removeEntry_frame (removeResident s k) k
    intro i q m hm
    rw [evictIdle_trace] at hm
    simp at hm
    show i < (removeEntry (removeResident s k) k).nextJob
    rw [e6]; exact h i q m hm
  | lru k =>
    obtain ⟨_, _, _, _, _, e6, _⟩ := removeEntry_frame (removeResident s k) k
    intro i q m hm
    rw [evictLru_trace] at hm
    show i < (removeEntry (removeResident s k) k).nextJob
    rw [e6]; exact h i q m hm

/-- The program comes from a compilation dispatched after the state `s1`. -/
def NewerThan (s1 : State) (o : Origin) : Prop := ∃ i, o = .job i ∧ ∀ k m, Act.dispatch i k m ∉ s1.trace

/-- The artifact was in the store in state `s1`. -/
def StoredIn (s1 : State) (k : Key) (code : Code) (o : Origin) : Prop :=
  ∃ q, s1.persisted.get k = some q ∧ q.code = code ∧ q.origin = o

theorem clear_src {cfg : Config} {pre per : AMap Key Program} (hs : GoodStart pre per) (evs1 evs2 : List Ev)
    (F : Key → Code → Origin → Prop) (s0 : State)
    (hnew : ∀ k code i, (run cfg (init pre per) evs1).nextJob ≤ i → F k code (.job i))
    (h0 : ∀ H, Inv cfg H (run cfg (init pre per) evs1) → Inv cfg H s0 ∧
      ((∀ j ∈ (run cfg (init pre per) evs1).jobs, H.code j.key j.code) →
        Src cfg H (run cfg (init pre per) evs1).nextJob ((run cfg (init pre per) evs1).generation + 1) F s0)) :
    ∀ k p, (run cfg s0 evs2).resident.get k = some p → F k p.code p.origin := by
  let H : Hist := ⟨fun _ _ => True, fun _ _ => True⟩
  have hall : ∀ evs : List Ev, ∀ e ∈ evs, Allows H e := fun _ _ _ => ⟨fun _ _ => trivial, fun _ _ _ => trivial⟩
  have hi := inv_run (inv_init cfg H hs) evs1 (hall evs1)
  obtain ⟨hi0, hsrc⟩ := h0 H hi
  exact (run_inv (src_micro fun k code i _ hN => hnew k code i hN) hi0 (hsrc fun _ _ => trivial) evs2
    (hall evs2)).resident

theorem numbers_history {cfg : Config} {pre per : AMap Key Program} (hs : GoodStart pre per) (evs : List Ev) :
    ∀ i k m, Act.dispatch i k m ∈ (run cfg (init pre per) evs).trace → i < (run cfg (init pre per) evs).nextJob :=
  history_inv hs evs (P := fun s => ∀ i k m, Act.dispatch i k m ∈ s.trace → i < s.nextJob)
    (fun i k m h => by simp [init] at h) (fun c s t _ h m => numbers_micro c s t h m)

/-- C29: after a full clear, whatever arrives later, lookups only ever return programs from compilations
dispatched after it. -/
theorem C29_clear_all {cfg : Config} {pre per : AMap Key Program} (hs : GoodStart pre per)
    (evs1 evs2 : List Ev) (hopen : (run cfg (init pre per) evs1).closed = false)
    (en locked : Bool) (k : Key) (code : Code) (p : Program)
    (h : lookup cfg en locked (run cfg (init pre per) (evs1 ++ .clearAll true :: evs2)) k code = .compiled p) :
    NewerThan (run cfg (init pre per) evs1) p.origin := by
  have hr := (((C26_decision cfg en locked _ k code).2.2.1 p).mp h).2.2.2
  rw [run_append] at hr
  refine clear_src hs evs1 evs2 (fun _ _ o => NewerThan (run cfg (init pre per) evs1) o)
    (step cfg (run cfg (init pre per) evs1) (.clearAll true)) ?_ ?_ k p hr
  · intro k code i hN
    refine ⟨i, rfl, fun k m hm => ?_⟩
    have := numbers_history hs evs1 i k m hm
    omega
  · intro H hi
    refine ⟨inv_step hi _ ⟨fun _ hx => (nomatch hx), fun _ _ ⟨_, _, hx⟩ => (nomatch hx)⟩, fun hj => ?_⟩
    simp only [step, hopen, Bool.false_eq_true, if_false]
    have hres : ∀ q, AMap.get (clearPersisted cfg (clearResident (run cfg (init pre per) evs1)) true).resident q
        = none := by
      intro q; unfold clearPersisted clearResident; split <;> rfl
    refine ⟨?_, ?_, ?_, ?_, ?_, ?_, ?_⟩
    · unfold clearPersisted clearResident; rw [releaseAll_eq]; split <;> exact Nat.le_refl _
    · unfold clearPersisted clearResident; split <;> exact Nat.le_refl _
    · intro j hj' hg
      have hj'' : j ∈ (run cfg (init pre per) evs1).jobs := by
        revert hj'; unfold clearPersisted clearResident; rw [releaseAll_eq]; split <;> exact id
      have := hi.gens j hj''
      omega
    · intro j hj'
      apply hj
      revert hj'; unfold clearPersisted clearResident; rw [releaseAll_eq]; split <;> exact id
    · intro q e hq
      revert hq; unfold clearPersisted clearResident; split <;> exact fun hq => by simp [AMap.get] at hq
    · intro q p hq; rw [hres] at hq; cases hq
    · intro hst q p hq
      have : (clearPersisted cfg (clearResident (run cfg (init pre per) evs1)) true).persisted = [] := by
        unfold clearPersisted
        rw [if_pos (by simp [hst])]
      rw [this] at hq; cases hq

/-- C29: after a clear of the resident programs, lookups only ever return programs from compilations
dispatched after it, or artifacts that were already in the store. -/
theorem C29_clear_resident {cfg : Config} {pre per : AMap Key Program} (hs : GoodStart pre per)
    (evs1 evs2 : List Ev) (hopen : (run cfg (init pre per) evs1).closed = false)
    (en locked : Bool) (k : Key) (code : Code) (p : Program)
    (h : lookup cfg en locked (run cfg (init pre per) (evs1 ++ .clearResident :: evs2)) k code = .compiled p) :
    NewerThan (run cfg (init pre per) evs1) p.origin ∨
      (cfg.hasStore = true ∧ StoredIn (run cfg (init pre per) evs1) k p.code p.origin) := by
  have hr := (((C26_decision cfg en locked _ k code).2.2.1 p).mp h).2.2.2
  rw [run_append] at hr
  refine clear_src hs evs1 evs2 (fun k c o => NewerThan (run cfg (init pre per) evs1) o ∨
      (cfg.hasStore = true ∧ StoredIn (run cfg (init pre per) evs1) k c o))
    (step cfg (run cfg (init pre per) evs1) .clearResident) ?_ ?_ k p hr
  · intro k code i hN
    refine .inl ⟨i, rfl, fun k m hm => ?_⟩
    have := numbers_history hs evs1 i k m hm
    omega
  · intro H hi
    refine ⟨inv_step hi _ ⟨fun _ hx => (nomatch hx), fun _ _ ⟨_, _, hx⟩ => (nomatch hx)⟩, fun hj => ?_⟩
    simp only [step, hopen, Bool.false_eq_true, if_false, clearResident, releaseAll_eq]
    refine ⟨Nat.le_refl _, Nat.le_refl _, ?_, hj, ?_, ?_, ?_⟩
    · intro j hj' hg
      have := hi.gens j hj'
      omega
    · intro q e hq; simp [AMap.get] at hq
    · intro q p hq; simp [AMap.get] at hq
    · intro hst q p hq
      exact .inr ⟨hst, p, hq, rfl, rfl⟩

/-- A late result after a clear stays invisible; the compilation dispatched after it is published. -/
example :
    let s := run exCfg (init [] []) ([.compileJit exA [1] none true, .start 0] ++ .clearAll true ::
      [.compileJit exA [1] none true, .start 1, .result 0 .jit])
    let t := run exCfg s [.result 1 .jit]
    lookup exCfg true false s exA [1] = .notReady ∧
    lookup exCfg true false t exA [1] = .compiled ⟨exA, .jit, [1], .job 1⟩ := by decide

/-! ## C30 -/

/-- C30, what holds: the reported number of pending jobs is the number in flight plus the number of late
results discarded so far. Missing from the full claim: the second summand should not be there. -/
theorem C30_pending_partial {cfg : Config} {pre per : AMap Key Program} (hs : GoodStart pre per) (evs : List Ev) :
    let s := run cfg (init pre per) evs
    pendingStat s = (inFlight s.trace).length + discarded s.trace := by
  have ht := tinv_history (cfg := cfg) hs evs
  have hl : (inFlight (run cfg (init pre per) evs).trace).length = (run cfg (init pre per) evs).jobs.length := by
    rw [← ht.jobs, List.length_map]
  have := ht.counters
  simp only [pendingStat]
  omega

/-- C30 does not hold of the code: after a clear with a job in flight, one pending job is reported for ever
although none is in flight. -/
theorem C30_pending_fails :
    ¬ ∀ (cfg : Config) (evs : List Ev),
      pendingStat (run cfg (init [] []) evs) = (inFlight (run cfg (init [] []) evs).trace).length := by
  intro h
  have := h exCfg [.compileJit exA [1] none true, .start 0, .clearResident, .result 0 .jit]
  revert this
  decide

/-- Without a clear the number is exact: one of two jobs has finished. -/
example :
    let s := run exCfg (init [] []) [.compileJit exA [1] none true, .compileJit exB [1] none true, .start 0,
      .result 0 .failed]
    pendingStat s = 1 ∧ inFlight s.trace = [(1, exB)] ∧ discarded s.trace = 0 := by decide

/-! ## C31 -/

/-- C31: a compilation started by lookups is never dispatched before the misses since tracking began reach
the threshold. -/
theorem C31_never_early {cfg : Config} {pre per : AMap Key Program} (hs : GoodStart pre per) (evs : List Ev) :
    AtDispatch (fun _ k m older => m = .observed → cfg.hotThreshold ≤ missCount k older)
      (run cfg (init pre per) evs).trace := by
  have h := history_inv (cfg := cfg) hs evs
    (P := fun s => HInv s ∧ AtDispatch (HotEnough cfg) s.trace)
    ⟨fun k e he => by simp [init, AMap.get] at he, atDispatch_nil _⟩
    (fun c s t hi hp m => ⟨hinv_micro c s t hi hp.1 m, hotEnough_micro c s t hp.1 hp.2 m⟩)
  exact h.2

/-- Misses on `k` counted so far (none if `k` is not tracked). -/
def countedMisses (s : State) (k : Key) : Nat := if s.entries.has k then missCount k s.trace else 0

theorem hot_lt {U h n thr : Nat} (hh : h = min n U) (hlt : n + 1 < thr) : min (h + 1) U < thr := by omega

theorem hot_ge {U h n thr : Nat} (hh : h = min n U) (hthr : thr ≤ U) (hge : thr ≤ n + 1) :
    ¬ min (h + 1) U < thr := by omega

/-- C31: the miss that makes the count reach the threshold dispatches the compilation, given a free slot;
a miss that does not, does not. `k` is not resident, not being compiled, and there is room to track it. -/
theorem C31_on_time {cfg : Config} {pre per : AMap Key Program} (hs : GoodStart pre per) (evs : List Ev)
    (k : Key) (code : Code) (rest : List (Key × Code)) (loads : Bool) (hthr : cfg.hotThreshold ≤ U32_MAX)
    (s : State) (heq : s = run cfg (init pre per) evs) (hopen : s.closed = false)
    (hev : s.events = (k, code) :: rest) (hel : Eligible cfg code) (hres : s.resident.get k = none)
    (hstore : cfg.aot = true → persistedProgram cfg s k loads = none)
    (hcold : ∀ e, s.entries.get k = some e → e.phase = .cold)
    (hroom : s.entries.get k = none → s.entries.length < cfg.maxPending * 10)
    (hslot : (inFlight s.trace).length < cfg.maxPending) (hworker : cfg.hasWorkers = true)
    (hqueue : (s.jobs.filter (·.queued)).length < cfg.queueCapacity) :
    (countedMisses s k + 1 < cfg.hotThreshold →
      inFlight (step cfg s (.drain loads)).trace = inFlight s.trace) ∧
    (cfg.hotThreshold ≤ countedMisses s k + 1 →
      ∃ older, (step cfg s (.drain loads)).trace = .dispatch s.nextJob k .observed :: .miss k :: older) := by
  have hi := inv_history (cfg := cfg) hs evs
  have hh : HInv s := by
    rw [heq]
    exact history_inv (cfg := cfg) hs evs (P := HInv) (fun k e he => by simp [init, AMap.get] at he) hinv_micro
  have ht := tinv_history (cfg := cfg) hs evs
  rw [← heq] at hi ht
  have hlen : (inFlight s.trace).length = s.jobs.length := by rw [← ht.jobs, List.length_map]
  have hpend : ¬ s.pendingJobs ≥ cfg.maxPending := by rw [hi.pending]; omega
  have hacc : ∀ t : State, t.jobs = s.jobs → poolAccepts cfg t = true := by
    intro t htj; simp [poolAccepts, hworker, htj, hqueue]
  have hcode : code.isEmpty = false := by
    cases code with
    | nil => exact absurd rfl hel.1
    | cons => rfl
  -- the state after taking the event
  let s1 : State := { s with events := rest, stats := { s.stats with misses := s.stats.misses + 1 } }
  have hstep : step cfg s (.drain loads) =
      admitEntry cfg (ensureEntry s1 k code .observed) (defaultKind cfg) k none .observed := by
    simp only [step, hopen, Bool.false_eq_true, if_false, hev, handleObserved, hcode, tryAdmit, AMap.has, hres,
      Option.isSome_none, (shouldCompile_iff cfg code).mpr hel, Bool.not_true]
    rw [if_neg]
    · have hnone : ∀ t : State, t.persisted = s.persisted →
          (if defaultKind cfg = .aot then persistedProgram cfg t k loads else none) = none := by
        intro t hp
        unfold defaultKind
        cases ha : cfg.aot with
        | false => simp
        | true =>
          have := hstore ha
          simp only [if_true]
          unfold persistedProgram at this ⊢
          rw [hp]; exact this
      rw [hnone]
      · simp only [s1, hopen]
      · rfl
    · intro hcap
      simp only [Bool.and_eq_true, decide_eq_true_eq, Bool.not_eq_true', Option.isSome_eq_false_iff,
        Option.isNone_iff_eq_none] at hcap
      have := hroom hcap.1.2
      have := hcap.2
      omega
  rw [hstep]
  -- the entry's counter
  have hent : ∃ e s2, ensureEntry s1 k code .observed = s2 ∧ s2.entries.get k = some e ∧ e.phase = .cold ∧
      e.hotness = min (countedMisses s k) U32_MAX ∧ s2.pendingJobs = s.pendingJobs ∧ s2.jobs = s.jobs ∧
      s2.nextJob = s.nextJob ∧ inFlight s2.trace = inFlight s.trace := by
    cases he : s.entries.get k with
    | some e =>
      refine ⟨e, s1, ?_, he, hcold e he, ?_, rfl, rfl, rfl, rfl⟩
      · simp [ensureEntry, s1, he]
      · simp only [countedMisses, AMap.has, he, Option.isSome_some, if_true]
        exact hh k e he (hcold e he)
    | none =>
      refine ⟨⟨0, .cold, code, s.now, [], true⟩, _, rfl, ?_, rfl, ?_, ?_, ?_, ?_, ?_⟩
      · simp [ensureEntry, s1, he, AMap.get_insert]
      · simp [countedMisses, AMap.has, he]
      · simp [ensureEntry, s1, he]
      · simp [ensureEntry, s1, he]
      · simp [ensureEntry, s1, he]
      · simp [ensureEntry, s1, he, inFlight]
  obtain ⟨e, s2, hs2, hget, hph, hhot, hpj, hjb, hnx, hfl⟩ := hent
  rw [hs2]
  simp only [admitEntry, hget, hph]
  constructor
  · intro hlt
    rw [if_pos (hot_lt hhot hlt)]
    exact hfl
  · intro hge
    rw [if_neg (hot_ge hhot hthr hge)]
    simp only [dispatch, hpj]
    rw [if_neg hpend, if_pos]
    · exact ⟨s2.trace, by rw [hnx]⟩
    · exact hacc _ hjb

/-- C31: lookups never make the backend track more than ten times the pending-job limit. -/
theorem C31_tracked {cfg : Config} {pre per : AMap Key Program} (hs : GoodStart pre per) (evs : List Ev) :
    ((run cfg (init pre per) evs).entries.countP fun p => p.2.byLookup) ≤ 10 * cfg.maxPending := by
  have := history_inv (cfg := cfg) hs evs (P := fun s => lookupEntries s ≤ cfg.maxPending * 10)
    (Nat.zero_le _) (fun c s t _ h m => cap_micro c s t h m)
  rw [Nat.mul_comm]; exact this

/-- The second miss starts the compilation when the threshold is two. -/
example :
    let s := run exCfg (init [] []) [.lookup true false exA [1], .drain true, .lookup true false exA [1]]
    countedMisses s exA = 1 ∧ s.events = [(exA, [1])] ∧ inFlight s.trace = [] ∧
    inFlight (step exCfg s (.drain true)).trace = [(0, exA)] := by decide

end Verif.Backend
