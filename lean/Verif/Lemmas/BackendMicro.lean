import Verif.Model.Backend
import Verif.Lemmas.AMap
import Verif.Lemmas.ListExtra
/-!
# Lemmas: the backend's histories as sequences of small steps
-/

namespace Verif.Backend

theorem release_eq (s : State) (n : Notifier) :
    release s n = { s with released := n.toList ++ s.released } := by
  cases n <;> rfl

theorem releaseAll_eq (s : State) (ns : List Notifier) :
    releaseAll s ns = { s with released := (ns.filterMap id).reverse ++ s.released } := by
  induction ns generalizing s with
  | nil => rfl
  | cons n r ih =>
    show releaseAll (release s n) r = _
    rw [ih]
    cases n with
    | none => rfl
    | some c => simp [release]

/-- What the callers have done: `code k c` — code `c` was submitted under the key `k`; `ask k n` — caller
`n` asked for the key `k` and blocks. -/
structure Hist where
  code : Key → Code → Prop
  ask : Key → Nat → Prop

/-- One small change of the backend's state. The index is
the blocked caller whose request the change takes in, if any. -/
inductive Micro (cfg : Config) (H : Hist) : Notifier → State → State → Prop
  | misc {s : State} (st : Stats) (ev : List (Key × Code)) (now ls : Nat) (hits : AMap Key Nat)
      (hd : st.dispatched = s.stats.dispatched) (hs : st.succeeded = s.stats.succeeded)
      (hf : st.failed = s.stats.failed) (hk : hits.keys = s.residentMeta.keys)
      (hev : ∀ x ∈ ev, x ∈ s.events ∨ x.2 = [] ∨ H.code x.1 x.2) :
      Micro cfg H none s { s with stats := st, events := ev, now := now, lastSweep := ls, residentMeta := hits }
  | storeClear {s : State} : Micro cfg H none s { s with persisted := [] }
  | refuse {s : State} (n : Notifier) : Micro cfg H n s (release s n)
  | load {s : State} (k : Key) (q : Program) (hr : s.resident.get k = none)
      (hs : cfg.hasStore = true) (hq : s.persisted.get k = some q) :
      Micro cfg H none s (insertResident s k { q with key := k, kind := .aot })
  | track {s : State} (k : Key) (code : Code) (mode : Mode) (hr : s.resident.get k = none)
      (he : s.entries.get k = none) (hc : H.code k code) (hcl : s.closed = false)
      (hm : mode = .observed → s.entries.length < cfg.maxPending * 10) :
      Micro cfg H none s (ensureEntry s k code mode)
  | wait {s : State} (k : Key) (e : Entry) (n : Notifier) (mode : Mode)
      (he : s.entries.get k = some e) (hp : e.phase = .working) (hn : ∀ c, n = some c → H.ask k c) :
      Micro cfg H n s { s with
        entries := s.entries.update k fun e =>
          { e with lastObserved := s.now, waiters := e.waiters ++ [n] }
        trace := if mode = .observed then .miss k :: s.trace else s.trace }
  | heat {s : State} (k : Key) (e : Entry) (he : s.entries.get k = some e) (hp : e.phase = .cold)
      (hr : s.resident.get k = none) :
      Micro cfg H none s { s with
        entries := s.entries.update k fun e =>
          { e with lastObserved := s.now, hotness := min (e.hotness + 1) U32_MAX }
        trace := .miss k :: s.trace }
  | touch {s : State} (k : Key) (e : Entry) (he : s.entries.get k = some e) (hp : e.phase = .cold) :
      Micro cfg H none s { s with entries := s.entries.update k fun e => { e with lastObserved := s.now } }
  | dispatch {s : State} (kind : Kind) (k : Key) (e : Entry) (n : Notifier) (mode : Mode)
      (he : s.entries.get k = some e) (hp : e.phase = .cold) (hr : s.resident.get k = none)
      (hm : s.pendingJobs < cfg.maxPending) (ha : poolAccepts cfg s = true)
      (hh : mode = .observed → cfg.hotThreshold ≤ e.hotness) (hcl : s.closed = false)
      (hn : ∀ c, n = some c → H.ask k c) :
      Micro cfg H n s { s with
        entries := s.entries.update k fun e => { e with phase := .working }
        jobs := s.jobs ++ [{ id := s.nextJob, kind, key := k, code := e.code, notifier := n,
                             generation := s.generation, queued := true }]
        pendingJobs := s.pendingJobs + 1
        stats := { s.stats with dispatched := s.stats.dispatched + 1 }
        nextJob := s.nextJob + 1
        trace := .dispatch s.nextJob k mode :: s.trace }
  | clear {s : State} : Micro cfg H none s (clearResident s)
  | result {s : State} (j : Job) (o : Outcome) (hj : j ∈ s.jobs) (hcl : s.closed = false) : Micro cfg H none s (handleResult cfg s j o)
  | idle {s : State} (k : Key) (hi : cfg.idle.isSome = true) (hr : (s.resident.get k).isSome = true) : Micro cfg H none s (evictIdle s k)
  | lru {s : State} (k : Key) (p : Program) (hr : s.resident.get k = some p) (hk : p.kind = .jit) :
      Micro cfg H none s (evictLru s k)
  | cold {s : State} (idle : Nat) : Micro cfg H none s (sweepCold s idle)
  | start {s : State} (id : Nat) : Micro cfg H none s
      { s with jobs := s.jobs.map fun j => if j.id = id then { j with queued := false } else j }
  | close {s : State} (hcl : s.closed = false) : Micro cfg H none s (shutdown s)
  | abandon {s : State} (n : Notifier) : Micro cfg H n s (abandonAll s [n])

/-- Any number of small steps, with the callers whose requests they take in. -/
inductive Steps (cfg : Config) (H : Hist) (s : State) : List Nat → State → Prop
  | refl : Steps cfg H s [] s
  | tail {l : List Nat} {c : Notifier} {t u : State} :
      Steps cfg H s l t → Micro cfg H c t u → Steps cfg H s (c.toList ++ l) u

theorem Micro.steps {cfg : Config} {H : Hist} {c : Notifier} {s t : State}
    (h : Micro cfg H c s t) : Steps cfg H s c.toList t := by
  have := Steps.tail (.refl (cfg := cfg) (H := H) (s := s)) h
  rwa [List.append_nil] at this

theorem Steps.trans {cfg : Config} {H : Hist} {l l' : List Nat} {s t u : State}
    (h : Steps cfg H s l t) (h' : Steps cfg H t l' u) : Steps cfg H s (l' ++ l) u := by
  induction h' with
  | refl => exact h
  | tail _ hm ih => rw [List.append_assoc]; exact .tail ih hm

/-- Silent steps followed by steps, and conversely. -/
theorem Steps.trans₀ {cfg : Config} {H : Hist} {l : List Nat} {s t u : State}
    (h : Steps cfg H s [] t) (h' : Steps cfg H t l u) : Steps cfg H s l u := by
  have := h.trans h'
  rwa [List.append_nil] at this

/-- An invariant of the small steps is an invariant of sequences of them. -/
theorem Steps.inv {cfg : Config} {H : Hist} {P : State → Prop}
    (hP : ∀ c s t, P s → Micro cfg H c s t → P t)
    {l : List Nat} {s t : State} (h : Steps cfg H s l t) (hs : P s) : P t := by
  induction h with
  | refl => exact hs
  | tail _ hm ih => exact hP _ _ _ ih hm

/-! ## Basic invariant -/

/-- Sanity of the maps, counters and jobs. -/
structure Inv (cfg : Config) (H : Hist) (s : State) : Prop where
  events : ∀ x ∈ s.events, x.2 = [] ∨ H.code x.1 x.2
  pending : s.pendingJobs = s.jobs.length
  bound : s.jobs.length ≤ cfg.maxPending
  queue : (s.jobs.filter (·.queued)).length ≤ cfg.queueCapacity
  ids : ∀ j ∈ s.jobs, j.id < s.nextJob
  idsNodup : (s.jobs.map (·.id)).Nodup
  gens : ∀ j ∈ s.jobs, j.generation ≤ s.generation
  entriesNodup : AMap.Nodup s.entries
  residentNodup : AMap.Nodup s.resident
  metaNodup : AMap.Nodup s.residentMeta
  metaKeys : ∀ k, k ∈ s.residentMeta.keys ↔ k ∈ s.resident.keys
  residentKey : ∀ k p, s.resident.get k = some p → p.key = k
  working : ∀ k e, s.entries.get k = some e → e.phase = .working →
    ∃ j ∈ s.jobs, j.key = k ∧ j.generation = s.generation
  coldWaiters : ∀ k e, s.entries.get k = some e → e.phase = .cold → e.waiters = []
  jitDone : ∀ k p e, s.resident.get k = some p → p.kind = .jit → s.entries.get k = some e →
    e.phase = .cold

/-- What the store and the resident map hold before the backend starts (`preload_aot`,
mod.rs:494-542): ahead-of-time programs, published under their own key. -/
def GoodStart (preloaded persisted : AMap Key Program) : Prop :=
  AMap.Nodup preloaded ∧ (∀ k p, preloaded.get k = some p → p.key = k ∧ p.kind = .aot ∧ p.origin = .preloaded) ∧
    ∀ k p, persisted.get k = some p → p.origin = .preloaded

theorem keys_map_snd {κ α β : Type} (m : AMap κ α) (f : κ × α → β) :
    AMap.keys (m.map fun p => (p.1, f p)) = m.keys := by
  simp [AMap.keys, List.map_map, Function.comp_def]

theorem inv_init (cfg : Config) (H : Hist) {pre per : AMap Key Program} (h : GoodStart pre per) :
    Inv cfg H (init pre per) := by
  have hk : AMap.keys (init pre per).residentMeta = pre.keys := keys_map_snd pre (fun _ => 0)
  constructor
  · intro x hx; simp [init] at hx
  · rfl
  · exact Nat.zero_le _
  · exact Nat.zero_le _
  · intro j hj; simp [init] at hj
  · exact List.nodup_nil
  · intro j hj; simp [init] at hj
  · exact AMap.nodup_nil
  · exact h.1
  · show (AMap.keys (init pre per).residentMeta).Nodup
    rw [hk]; exact h.1
  · intro k; rw [hk]; rfl
  · intro k p hp; exact (h.2.1 k p hp).1
  · intro k e he; simp [init, AMap.get] at he
  · intro k e he; simp [init, AMap.get] at he
  · intro k p e hp hk'; rw [(h.2.1 k p hp).2.1] at hk'; cases hk'

theorem removeEntry_entries (s : State) (k q : Key) :
    (removeEntry s k).entries.get q = if q = k then none else s.entries.get q := by
  unfold removeEntry
  split
  · rename_i h
    split
    · rename_i hq; rw [hq, h]
    · rfl
  · exact AMap.get_erase _ _ _

theorem removeEntry_nodup {s : State} (h : AMap.Nodup s.entries) (k : Key) :
    AMap.Nodup (removeEntry s k).entries := by
  unfold removeEntry
  split
  · exact h
  · exact AMap.nodup_erase h k

theorem removeEntry_frame (s : State) (k : Key) :
    (removeEntry s k).resident = s.resident ∧ (removeEntry s k).residentMeta = s.residentMeta ∧
    (removeEntry s k).jobs = s.jobs ∧ (removeEntry s k).pendingJobs = s.pendingJobs ∧
    (removeEntry s k).generation = s.generation ∧ (removeEntry s k).nextJob = s.nextJob ∧
    (removeEntry s k).persisted = s.persisted ∧ (removeEntry s k).stats = s.stats ∧
    (removeEntry s k).trace = s.trace ∧ (removeEntry s k).released = s.released ∧
    (removeEntry s k).now = s.now ∧ (removeEntry s k).events = s.events ∧
    (removeEntry s k).closed = s.closed := by
  unfold removeEntry
  split <;> exact ⟨rfl, rfl, rfl, rfl, rfl, rfl, rfl, rfl, rfl, rfl, rfl, rfl, rfl⟩

theorem mem_keys_erase {α : Type} (m : AMap Key α) (k q : Key) :
    q ∈ (m.erase k).keys ↔ q ≠ k ∧ q ∈ m.keys := by
  rw [AMap.mem_keys_iff, AMap.mem_keys_iff, AMap.get_erase]
  by_cases h : q = k <;> simp [h]

theorem mem_keys_insert {α : Type} (m : AMap Key α) (k q : Key) (v : α) :
    q ∈ (m.insert k v).keys ↔ q = k ∨ q ∈ m.keys := by
  rw [AMap.mem_keys_iff, AMap.mem_keys_iff, AMap.get_insert]
  by_cases h : q = k <;> simp [h]

/-- Removing a program and its entry, whatever the entry's phase. -/
theorem inv_evict {cfg : Config} {H : Hist} {s s' : State} (h : Inv cfg H s) (k : Key)
    (hr : s'.resident = s.resident.erase k) (hm : s'.residentMeta = s.residentMeta.erase k)
    (he : ∀ q, s'.entries.get q = if q = k then none else s.entries.get q)
    (hn : AMap.Nodup s'.entries) (hj : s'.jobs = s.jobs) (hp : s'.pendingJobs = s.pendingJobs)
    (hg : s'.generation = s.generation) (hi : s'.nextJob = s.nextJob)
    (hevs : s'.events = s.events) : Inv cfg H s' := by
  have hget : ∀ q e, s'.entries.get q = some e → s.entries.get q = some e := by
    intro q e hq
    rw [he] at hq
    split at hq
    · cases hq
    · exact hq
  have hres : ∀ q p, s'.resident.get q = some p → s.resident.get q = some p := by
    intro q p hq
    rw [hr, AMap.get_erase] at hq
    split at hq
    · cases hq
    · exact hq
  constructor
  · rw [hevs]; exact h.events
  · rw [hp, hj]; exact h.pending
  · rw [hj]; exact h.bound
  · rw [hj]; exact h.queue
  · rw [hj, hi]; exact h.ids
  · rw [hj]; exact h.idsNodup
  · rw [hj, hg]; exact h.gens
  · exact hn
  · rw [hr]; exact AMap.nodup_erase h.residentNodup k
  · rw [hm]; exact AMap.nodup_erase h.metaNodup k
  · intro q; rw [hr, hm, mem_keys_erase, mem_keys_erase, h.metaKeys]
  · intro q p hq; exact h.residentKey q p (hres q p hq)
  · intro q e hq hw; rw [hj, hg]; exact h.working q e (hget q e hq) hw
  · intro q e hq; exact h.coldWaiters q e (hget q e hq)
  · intro q p e hq hk hq'; exact h.jitDone q p e (hres q p hq) hk (hget q e hq')

/-- A change of entries only, by a pointwise function that keeps the phase. -/
theorem inv_update {cfg : Config} {H : Hist} {s : State} (h : Inv cfg H s) (k : Key) (f : Entry → Entry)
    (hf : ∀ e, s.entries.get k = some e → (f e).phase = e.phase ∧ (e.phase = .cold → (f e).waiters = e.waiters))
    {s' : State} (he : s'.entries = s.entries.update k f) (hr : s'.resident = s.resident)
    (hm : s'.residentMeta = s.residentMeta) (hj : s'.jobs = s.jobs)
    (hp : s'.pendingJobs = s.pendingJobs) (hg : s'.generation = s.generation)
    (hi : s'.nextJob = s.nextJob) (hevs : s'.events = s.events) : Inv cfg H s' := by
  have hget : ∀ q e', s'.entries.get q = some e' →
      ∃ e, s.entries.get q = some e ∧ e'.phase = e.phase ∧ (e.phase = .cold → e'.waiters = e.waiters) := by
    intro q e' hq
    rw [he, AMap.get_update] at hq
    split at hq
    · rename_i hqk
      subst hqk
      cases hg' : s.entries.get q with
      | none => rw [hg'] at hq; cases hq
      | some e =>
        rw [hg'] at hq
        simp only [Option.map_some, Option.some.injEq] at hq
        subst hq
        exact ⟨e, rfl, hf e hg'⟩
    · exact ⟨e', hq, rfl, fun _ => rfl⟩
  constructor
  · rw [hevs]; exact h.events
  · rw [hp, hj]; exact h.pending
  · rw [hj]; exact h.bound
  · rw [hj]; exact h.queue
  · rw [hj, hi]; exact h.ids
  · rw [hj]; exact h.idsNodup
  · rw [hj, hg]; exact h.gens
  · rw [he]; exact AMap.nodup_update h.entriesNodup k f
  · rw [hr]; exact h.residentNodup
  · rw [hm]; exact h.metaNodup
  · intro q; rw [hr, hm]; exact h.metaKeys q
  · rw [hr]; exact h.residentKey
  · intro q e' hq hw
    obtain ⟨e, h1, h2, _⟩ := hget q e' hq
    rw [hj, hg]; exact h.working q e h1 (by rw [← h2]; exact hw)
  · intro q e' hq hc
    obtain ⟨e, h1, h2, h3⟩ := hget q e' hq
    rw [h2] at hc
    rw [h3 hc]; exact h.coldWaiters q e h1 hc
  · intro q p e' hq hk hq'
    obtain ⟨e, h1, h2, _⟩ := hget q e' hq'
    rw [hr] at hq
    rw [h2]; exact h.jitDone q p e hq hk h1

/-- The state between removing a finished job and publishing its result. -/
def afterJob (s : State) (j : Job) : State :=
  { s with
    jobs := s.jobs.filter (·.id ≠ j.id)
    pendingJobs := s.pendingJobs - 1
    entries := s.entries.update j.key fun e => { e with waiters := [] } }

/-- Exactly one job has the given number. -/
theorem filter_id_length {l : List Job} (hn : (l.map (·.id)).Nodup) {j : Job} (hj : j ∈ l) :
    (l.filter (·.id ≠ j.id)).length + 1 = l.length := by
  induction l with
  | nil => simp at hj
  | cons a r ih =>
    simp only [List.map_cons, List.nodup_cons] at hn
    rcases List.mem_cons.mp hj with rfl | hj'
    · have : r.filter (fun x => x.id ≠ j.id) = r := by
        apply List.filter_eq_self.mpr
        intro x hx
        simp only [decide_eq_true_eq]
        intro he
        exact hn.1 (List.mem_map.mpr ⟨x, hx, he⟩)
      rw [List.filter_cons_of_neg (by simp), this]; rfl
    · have hne : a.id ≠ j.id := fun he => hn.1 (List.mem_map.mpr ⟨j, hj', he.symm⟩)
      rw [List.filter_cons_of_pos (by simpa using hne)]
      simp only [List.length_cons]
      rw [ih hn.2 hj']

/-- After a result: the job is gone, its entry is gone, and the resident map either is unchanged or has
gained a program for the key. -/
theorem inv_result {cfg : Config} {H : Hist} {s s' : State} (h : Inv cfg H s) {j : Job} (hj : j ∈ s.jobs)
    (he : s'.entries = (s.entries.update j.key fun e => { e with waiters := [] }).erase j.key)
    (hjobs : s'.jobs = s.jobs.filter (·.id ≠ j.id)) (hp : s'.pendingJobs = s.pendingJobs - 1)
    (hg : s'.generation = s.generation) (hi : s'.nextJob = s.nextJob)
    (hr : (s'.resident = s.resident ∧ s'.residentMeta = s.residentMeta) ∨
      ∃ p : Program, p.key = j.key ∧ s'.resident = s.resident.insert j.key p ∧
        s'.residentMeta = s.residentMeta.insert j.key s.now) (hevs : s'.events = s.events) : Inv cfg H s' := by
  have hlen := filter_id_length h.idsNodup hj
  have hget : ∀ q e, s'.entries.get q = some e → q ≠ j.key ∧ s.entries.get q = some e := by
    intro q e hq
    rw [he, AMap.get_erase, AMap.get_update] at hq
    by_cases hqk : q = j.key
    · simp [hqk] at hq
    · simp only [hqk, if_false] at hq; exact ⟨hqk, hq⟩
  constructor
  · rw [hevs]; exact h.events
  · rw [hp, hjobs, h.pending]; omega
  · rw [hjobs]; have := h.bound; omega
  · rw [hjobs, List.filter_filter]
    refine Nat.le_trans (List.Sublist.length_le ?_) h.queue
    rw [show (fun a : Job => a.queued && decide (a.id ≠ j.id)) =
      (fun a => decide (a.id ≠ j.id) && a.queued) from funext fun a => Bool.and_comm _ _]
    rw [← List.filter_filter]
    exact List.filter_sublist
  · intro x hx; rw [hjobs] at hx; rw [hi]; exact h.ids x (List.mem_filter.mp hx).1
  · rw [hjobs]; exact List.Nodup.sublist (List.Sublist.map _ List.filter_sublist) h.idsNodup
  · intro x hx; rw [hjobs] at hx; rw [hg]; exact h.gens x (List.mem_filter.mp hx).1
  · rw [he]; exact AMap.nodup_erase (AMap.nodup_update h.entriesNodup _ _) _
  · rcases hr with ⟨hr, _⟩ | ⟨p, _, hr, _⟩
    · rw [hr]; exact h.residentNodup
    · rw [hr]; exact AMap.nodup_insert h.residentNodup _ _
  · rcases hr with ⟨_, hm⟩ | ⟨p, _, _, hm⟩
    · rw [hm]; exact h.metaNodup
    · rw [hm]; exact AMap.nodup_insert h.metaNodup _ _
  · intro q
    rcases hr with ⟨hr, hm⟩ | ⟨p, _, hr, hm⟩
    · rw [hr, hm]; exact h.metaKeys q
    · rw [hr, hm, mem_keys_insert, mem_keys_insert, h.metaKeys]
  · intro q p hq
    rcases hr with ⟨hr, _⟩ | ⟨p', hk, hr, _⟩
    · rw [hr] at hq; exact h.residentKey q p hq
    · rw [hr, AMap.get_insert] at hq
      split at hq
      · rename_i hqk
        simp only [Option.some.injEq] at hq
        subst hq; rw [hk, hqk]
      · exact h.residentKey q p hq
  · intro q e hq hw
    obtain ⟨hne, hq⟩ := hget q e hq
    obtain ⟨x, hx, hxk, hxg⟩ := h.working q e hq hw
    refine ⟨x, ?_, hxk, by rw [hg]; exact hxg⟩
    rw [hjobs, List.mem_filter]
    refine ⟨hx, ?_⟩
    simp only [decide_eq_true_eq]
    intro hid
    have : x = j := by
      have hnd := h.idsNodup
      clear hlen hget
      revert hx hj hid hnd
      generalize s.jobs = l
      intro hj hx hid hnd
      induction l with
      | nil => simp at hj
      | cons a r ih =>
        simp only [List.map_cons, List.nodup_cons] at hnd
        rcases List.mem_cons.mp hx with rfl | hx' <;> rcases List.mem_cons.mp hj with rfl | hj'
        · rfl
        · exact absurd (List.mem_map.mpr ⟨j, hj', hid.symm⟩) hnd.1
        · exact absurd (List.mem_map.mpr ⟨x, hx', hid⟩) hnd.1
        · exact ih hj' hx' hnd.2
    exact hne (by rw [← hxk, this])
  · intro q e hq; exact h.coldWaiters q e (hget q e hq).2
  · intro q p e hq hk hq'
    obtain ⟨hne, hq'⟩ := hget q e hq'
    rcases hr with ⟨hr, _⟩ | ⟨p', _, hr, _⟩
    · rw [hr] at hq; exact h.jitDone q p e hq hk hq'
    · rw [hr, AMap.get_insert] at hq
      rw [if_neg hne] at hq
      exact h.jitDone q p e hq hk hq'

/-- Shape of the state after a result was processed. -/
theorem publish_shape (cfg : Config) (s : State) (j : Job) (o : Outcome) :
    let t := publish cfg s j o
    t.entries = s.entries.erase j.key ∧ t.jobs = s.jobs ∧ t.pendingJobs = s.pendingJobs ∧
    t.generation = s.generation ∧ t.nextJob = s.nextJob ∧ t.released = s.released ∧
    t.abandoned = s.abandoned ∧ t.now = s.now ∧ t.stats.dispatched = s.stats.dispatched ∧
    t.closed = s.closed ∧
    ((t.resident = s.resident ∧ t.residentMeta = s.residentMeta ∧
        t.stats.succeeded = s.stats.succeeded ∧ t.stats.failed = s.stats.failed + 1) ∨
      ∃ kd, t.resident = s.resident.insert j.key ⟨j.key, kd, j.code, .job j.id⟩ ∧
        t.residentMeta = s.residentMeta.insert j.key s.now ∧
        t.stats.succeeded = s.stats.succeeded + 1 ∧ t.stats.failed = s.stats.failed) ∧
    (t.persisted = s.persisted ∨
      t.persisted = s.persisted.insert j.key ⟨j.key, .aot, j.code, .job j.id⟩) := by
  have fail : ∀ s : State, let t := recordFailure s j
      t.entries = s.entries.erase j.key ∧ t.jobs = s.jobs ∧ t.pendingJobs = s.pendingJobs ∧
      t.generation = s.generation ∧ t.nextJob = s.nextJob ∧ t.released = s.released ∧
      t.abandoned = s.abandoned ∧ t.now = s.now ∧ t.stats.dispatched = s.stats.dispatched ∧
      t.closed = s.closed ∧
      ((t.resident = s.resident ∧ t.residentMeta = s.residentMeta ∧
        t.stats.succeeded = s.stats.succeeded ∧ t.stats.failed = s.stats.failed + 1) ∨
      ∃ kd, t.resident = s.resident.insert j.key ⟨j.key, kd, j.code, .job j.id⟩ ∧
        t.residentMeta = s.residentMeta.insert j.key s.now ∧
        t.stats.succeeded = s.stats.succeeded + 1 ∧ t.stats.failed = s.stats.failed) :=
    fun s => ⟨rfl, rfl, rfl, rfl, rfl, rfl, rfl, rfl, rfl, rfl, .inl ⟨rfl, rfl, rfl, rfl⟩⟩
  have jit : let t := publishJit s j
      t.entries = s.entries.erase j.key ∧ t.jobs = s.jobs ∧ t.pendingJobs = s.pendingJobs ∧
      t.generation = s.generation ∧ t.nextJob = s.nextJob ∧ t.released = s.released ∧
      t.abandoned = s.abandoned ∧ t.now = s.now ∧ t.stats.dispatched = s.stats.dispatched ∧
      t.closed = s.closed ∧
      ((t.resident = s.resident ∧ t.residentMeta = s.residentMeta ∧
        t.stats.succeeded = s.stats.succeeded ∧ t.stats.failed = s.stats.failed + 1) ∨
      ∃ kd, t.resident = s.resident.insert j.key ⟨j.key, kd, j.code, .job j.id⟩ ∧
        t.residentMeta = s.residentMeta.insert j.key s.now ∧
        t.stats.succeeded = s.stats.succeeded + 1 ∧ t.stats.failed = s.stats.failed) ∧
      (t.persisted = s.persisted ∨
        t.persisted = s.persisted.insert j.key ⟨j.key, .aot, j.code, .job j.id⟩) :=
    ⟨rfl, rfl, rfl, rfl, rfl, rfl, rfl, rfl, rfl, rfl, .inr ⟨.jit, rfl, rfl, rfl, rfl⟩, .inl rfl⟩
  have fail' : let t := recordFailure s j
      t.entries = s.entries.erase j.key ∧ t.jobs = s.jobs ∧ t.pendingJobs = s.pendingJobs ∧
      t.generation = s.generation ∧ t.nextJob = s.nextJob ∧ t.released = s.released ∧
      t.abandoned = s.abandoned ∧ t.now = s.now ∧ t.stats.dispatched = s.stats.dispatched ∧
      t.closed = s.closed ∧
      ((t.resident = s.resident ∧ t.residentMeta = s.residentMeta ∧
        t.stats.succeeded = s.stats.succeeded ∧ t.stats.failed = s.stats.failed + 1) ∨
      ∃ kd, t.resident = s.resident.insert j.key ⟨j.key, kd, j.code, .job j.id⟩ ∧
        t.residentMeta = s.residentMeta.insert j.key s.now ∧
        t.stats.succeeded = s.stats.succeeded + 1 ∧ t.stats.failed = s.stats.failed) ∧
      (t.persisted = s.persisted ∨
        t.persisted = s.persisted.insert j.key ⟨j.key, .aot, j.code, .job j.id⟩) :=
    ⟨rfl, rfl, rfl, rfl, rfl, rfl, rfl, rfl, rfl, rfl, .inl ⟨rfl, rfl, rfl, rfl⟩, .inl rfl⟩
  cases o with
  | failed => exact fail'
  | jit => exact jit
  | jitObject l => cases l <;> first | exact fail' | exact jit
  | aot st ld =>
    simp only [publish, publishAot]
    split
    · exact fail'
    · split
      · exact fail'
      · split
        · exact ⟨rfl, rfl, rfl, rfl, rfl, rfl, rfl, rfl, rfl, rfl, .inl ⟨rfl, rfl, rfl, rfl⟩, .inr rfl⟩
        · exact ⟨rfl, rfl, rfl, rfl, rfl, rfl, rfl, rfl, rfl, rfl, .inr ⟨.aot, rfl, rfl, rfl, rfl⟩, .inr rfl⟩

theorem publish_events (cfg : Config) (s : State) (j : Job) (o : Outcome) :
    (publish cfg s j o).events = s.events := by
  cases o with
  | failed => rfl
  | jit => rfl
  | jitObject l => cases l <;> rfl
  | aot st ld =>
    simp only [publish, publishAot]
    split
    · rfl
    · split
      · rfl
      · split <;> rfl

/-- `handleResult` in terms of its two branches. -/
theorem handleResult_eq (cfg : Config) (s : State) (j : Job) (o : Outcome) :
    handleResult cfg s j o =
      if j.generation ≠ s.generation then
        { afterJob s j with
          entries := (afterJob s j).entries.erase j.key
          trace := .stale j.id j.key :: s.trace
          released := ((j.notifier :: takeWaiters s j.key).filterMap id).reverse ++ s.released }
      else
        { publish cfg (afterJob s j) j o with
          trace := .finished j.id j.key :: s.trace
          released := ((j.notifier :: takeWaiters s j.key).filterMap id).reverse ++ s.released } := by
  unfold handleResult
  simp only
  split
  · rw [releaseAll_eq]; rfl
  · rw [releaseAll_eq]
    have := (publish_shape cfg (afterJob s j) j o).2.2.2.2.2.1
    simp only [afterJob] at this ⊢
    rw [this]

theorem inv_micro {cfg : Config} {H : Hist} {c : Notifier} {s t : State} (h : Inv cfg H s)
    (m : Micro cfg H c s t) : Inv cfg H t := by
  cases m with
  | misc st ev now ls hits hd hs hf hk hev =>
    refine ⟨fun x hx => (hev x hx).elim (h.events x) id, h.pending, h.bound, h.queue, h.ids, h.idsNodup, h.gens, h.entriesNodup, h.residentNodup, ?_, ?_,
      h.residentKey, h.working, h.coldWaiters, h.jitDone⟩
    · show (AMap.keys hits).Nodup; rw [hk]; exact h.metaNodup
    · intro q; show q ∈ AMap.keys hits ↔ _; rw [hk]; exact h.metaKeys q
  | storeClear =>
    exact ⟨h.events, h.pending, h.bound, h.queue, h.ids, h.idsNodup, h.gens, h.entriesNodup, h.residentNodup,
      h.metaNodup, h.metaKeys, h.residentKey, h.working, h.coldWaiters, h.jitDone⟩
  | refuse n =>
    rw [release_eq]
    exact ⟨h.events, h.pending, h.bound, h.queue, h.ids, h.idsNodup, h.gens, h.entriesNodup, h.residentNodup,
      h.metaNodup, h.metaKeys, h.residentKey, h.working, h.coldWaiters, h.jitDone⟩
  | abandon n =>
    exact ⟨h.events, h.pending, h.bound, h.queue, h.ids, h.idsNodup, h.gens, h.entriesNodup, h.residentNodup,
      h.metaNodup, h.metaKeys, h.residentKey, h.working, h.coldWaiters, h.jitDone⟩
  | load k q hr hs hq =>
    refine ⟨h.events, h.pending, h.bound, h.queue, h.ids, h.idsNodup, h.gens, h.entriesNodup,
      AMap.nodup_insert h.residentNodup _ _, AMap.nodup_insert h.metaNodup _ _, ?_, ?_, h.working,
      h.coldWaiters, ?_⟩
    · intro q'
      simp only [insertResident]
      rw [mem_keys_insert, mem_keys_insert, h.metaKeys]
    · intro q' p hp
      simp only [insertResident] at hp
      rw [AMap.get_insert] at hp
      split at hp
      · rename_i hqk
        simp only [Option.some.injEq] at hp
        subst hp; exact hqk.symm
      · exact h.residentKey q' p hp
    · intro q' p e hp hk he
      simp only [insertResident] at hp
      rw [AMap.get_insert] at hp
      split at hp
      · simp only [Option.some.injEq] at hp
        subst hp; cases hk
      · exact h.jitDone q' p e hp hk he
  | track k code mode hr he hc hcl hm =>
    simp only [ensureEntry, he]
    have hget : ∀ q e, (s.entries.insert k
        { hotness := 0, phase := .cold, code, lastObserved := s.now, waiters := [],
          byLookup := mode == .observed }).get q = some e →
        (e.phase = .cold ∧ e.waiters = []) ∨ s.entries.get q = some e := by
      intro q e hq
      rw [AMap.get_insert] at hq
      split at hq
      · simp only [Option.some.injEq] at hq; subst hq; exact .inl ⟨rfl, rfl⟩
      · exact .inr hq
    refine ⟨h.events, h.pending, h.bound, h.queue, h.ids, h.idsNodup, h.gens, AMap.nodup_insert h.entriesNodup _ _,
      h.residentNodup, h.metaNodup, h.metaKeys, h.residentKey, ?_, ?_, ?_⟩
    · intro q e hq hw
      rcases hget q e hq with h1 | h1
      · rw [h1.1] at hw; cases hw
      · exact h.working q e h1 hw
    · intro q e hq hc
      rcases hget q e hq with h1 | h1
      · exact h1.2
      · exact h.coldWaiters q e h1 hc
    · intro q p e hp hk hq
      rcases hget q e hq with h1 | h1
      · exact h1.1
      · exact h.jitDone q p e hp hk h1
  | wait k e n mode he hp hn =>
    refine inv_update h k (fun e => { e with lastObserved := s.now, waiters := e.waiters ++ [c] }) ?_ rfl rfl rfl
      rfl rfl rfl rfl rfl
    intro e' he'
    refine ⟨rfl, fun hc => ?_⟩
    rw [he] at he'
    simp only [Option.some.injEq] at he'
    subst he'
    rw [hp] at hc; cases hc
  | heat k e he hp hr =>
    exact inv_update h k
      (fun e => { e with lastObserved := s.now, hotness := min (e.hotness + 1) U32_MAX }) (fun _ _ => ⟨rfl, fun _ => rfl⟩) rfl rfl rfl rfl rfl rfl rfl rfl
  | touch k e he hp =>
    exact inv_update h k (fun e => { e with lastObserved := s.now }) (fun _ _ => ⟨rfl, fun _ => rfl⟩) rfl rfl rfl rfl rfl rfl rfl rfl
  | dispatch kind k e n mode he hp hr hm ha hh hcl hn =>
    have hget : ∀ q e', (s.entries.update k fun e => { e with phase := .working }).get q = some e' →
        (q = k ∧ e'.phase = .working) ∨ (q ≠ k ∧ s.entries.get q = some e') := by
      intro q e' hq
      rw [AMap.get_update] at hq
      split at hq
      · rename_i hqk
        subst hqk
        rw [he] at hq
        simp only [Option.map_some, Option.some.injEq] at hq
        subst hq; exact .inl ⟨rfl, rfl⟩
      · rename_i hqk; exact .inr ⟨hqk, hq⟩
    have hac : (s.jobs.filter (·.queued)).length < cfg.queueCapacity := by
      simp only [poolAccepts, Bool.and_eq_true, decide_eq_true_eq] at ha
      exact ha.2
    have hpend := h.pending
    constructor
    · exact h.events
    · simp [hpend]
    · simp only [List.length_append, List.length_cons, List.length_nil]; omega
    · rw [List.filter_append]
      simp only [List.length_append, List.filter_cons_of_pos, List.filter_nil, List.length_cons,
        List.length_nil]
      omega
    · intro x hx
      rcases List.mem_append.mp hx with hx | hx
      · have := h.ids x hx; show x.id < s.nextJob + 1; omega
      · simp only [List.mem_singleton] at hx; subst hx; exact Nat.lt_succ_self _
    · rw [List.map_append, List.nodup_append]
      refine ⟨h.idsNodup, by simp, ?_⟩
      intro a ha' b hb
      simp only [List.map_cons, List.map_nil, List.mem_singleton] at hb
      subst hb
      obtain ⟨x, hx, rfl⟩ := List.mem_map.mp ha'
      have := h.ids x hx; omega
    · intro x hx
      rcases List.mem_append.mp hx with hx | hx
      · exact h.gens x hx
      · simp only [List.mem_singleton] at hx; subst hx; exact Nat.le_refl _
    · exact AMap.nodup_update h.entriesNodup k fun e => { e with phase := .working }
    · exact h.residentNodup
    · exact h.metaNodup
    · exact h.metaKeys
    · exact h.residentKey
    · intro q e' hq hw
      rcases hget q e' hq with ⟨rfl, _⟩ | ⟨_, hq⟩
      · exact ⟨_, List.mem_append.mpr (.inr (List.mem_singleton.mpr rfl)), rfl, rfl⟩
      · obtain ⟨x, hx, h1, h2⟩ := h.working q e' hq hw
        exact ⟨x, List.mem_append.mpr (.inl hx), h1, h2⟩
    · intro q e' hq hc
      rcases hget q e' hq with ⟨_, hw⟩ | ⟨_, hq⟩
      · rw [hw] at hc; cases hc
      · exact h.coldWaiters q e' hq hc
    · intro q p e' hp' hk hq
      rcases hget q e' hq with ⟨rfl, _⟩ | ⟨_, hq⟩
      · have hp'' : s.resident.get q = some p := hp'
        rw [hr] at hp''; cases hp''
      · exact h.jitDone q p e' hp' hk hq
  | clear =>
    simp only [clearResident, releaseAll_eq]
    refine ⟨fun x hx => by simp at hx, h.pending, h.bound, h.queue, h.ids, h.idsNodup, ?_, AMap.nodup_nil, AMap.nodup_nil,
      AMap.nodup_nil, fun q => Iff.rfl, ?_, ?_, ?_, ?_⟩
    · intro x hx; have := h.gens x hx; show x.generation ≤ s.generation + 1; omega
    · intro q p hp; simp [AMap.get] at hp
    · intro q e hq; simp [AMap.get] at hq
    · intro q e hq; simp [AMap.get] at hq
    · intro q p e hp; simp [AMap.get] at hp
  | result j o hj hcl =>
    rw [handleResult_eq]
    split
    · exact inv_result h hj rfl rfl rfl rfl rfl (.inl ⟨rfl, rfl⟩) rfl
    · obtain ⟨h1, h2, h3, h4, h5, _, _, h8, _, _, h11, _⟩ := publish_shape cfg (afterJob s j) j o
      refine inv_result h hj h1 h2 h3 h4 h5 ?_ (publish_events cfg (afterJob s j) j o)
      rcases h11 with ⟨h11, h12, _⟩ | ⟨kd, h11, h12, _⟩
      · exact .inl ⟨h11, h12⟩
      · exact .inr ⟨_, rfl, h11, h12⟩
  | idle k hi hr =>
    obtain ⟨h1, h2, h3, h4, h5, h6, _, _, _, _, _, h12, _⟩ := removeEntry_frame (removeResident s k) k
    exact inv_evict h k h1 h2 (removeEntry_entries _ k) (removeEntry_nodup (s := removeResident s k) h.entriesNodup k)
      h3 h4 h5 h6 h12
  | lru k p hr hk =>
    obtain ⟨h1, h2, h3, h4, h5, h6, _, _, _, _, _, h12, _⟩ := removeEntry_frame (removeResident s k) k
    exact inv_evict h k h1 h2 (removeEntry_entries _ k) (removeEntry_nodup (s := removeResident s k) h.entriesNodup k)
      h3 h4 h5 h6 h12
  | cold idle =>
    have hget : ∀ q e, (sweepCold s idle).entries.get q = some e → s.entries.get q = some e := by
      intro q e hq
      simp only [sweepCold] at hq
      rw [AMap.get_filter h.entriesNodup] at hq
      exact (Option.filter_eq_some_iff.mp hq).1
    exact ⟨h.events, h.pending, h.bound, h.queue, h.ids, h.idsNodup, h.gens, AMap.nodup_filter h.entriesNodup _,
      h.residentNodup, h.metaNodup, h.metaKeys, h.residentKey,
      fun q e hq hw => h.working q e (hget q e hq) hw,
      fun q e hq hc => h.coldWaiters q e (hget q e hq) hc,
      fun q p e hp hk hq => h.jitDone q p e hp hk (hget q e hq)⟩
  | start id =>
    have hmem : ∀ x ∈ s.jobs.map (fun j => if j.id = id then { j with queued := false } else j),
        ∃ y ∈ s.jobs, x.id = y.id ∧ x.key = y.key ∧ x.generation = y.generation := by
      intro x hx
      obtain ⟨y, hy, rfl⟩ := List.mem_map.mp hx
      refine ⟨y, hy, ?_⟩
      split <;> exact ⟨rfl, rfl, rfl⟩
    have hids : (s.jobs.map (fun j => if j.id = id then { j with queued := false } else j)).map (·.id) =
        s.jobs.map (·.id) := by
      rw [List.map_map]
      apply List.map_congr_left
      intro x _
      simp only [Function.comp]
      split <;> rfl
    refine ⟨h.events, ?_, ?_, ?_, ?_, ?_, ?_, h.entriesNodup, h.residentNodup, h.metaNodup, h.metaKeys, h.residentKey,
      ?_, h.coldWaiters, h.jitDone⟩
    · simp [h.pending]
    · simpa using h.bound
    · refine Nat.le_trans ?_ h.queue
      simp only
      generalize s.jobs = l
      induction l with
      | nil => simp
      | cons a r ih =>
        rw [List.map_cons]
        by_cases ha : a.id = id
        · simp only [ha, if_true]
          rw [List.filter_cons_of_neg (by simp)]
          refine Nat.le_trans ih ?_
          exact List.Sublist.length_le (List.Sublist.filter _ (List.sublist_cons_self a r))
        · simp only [ha, if_false]
          by_cases hq : a.queued = true
          · rw [List.filter_cons_of_pos (by simpa using hq), List.filter_cons_of_pos (by simpa using hq)]
            simp only [List.length_cons]; omega
          · rw [List.filter_cons_of_neg (by simpa using hq), List.filter_cons_of_neg (by simpa using hq)]
            exact ih
    · intro x hx
      obtain ⟨y, hy, h1, _⟩ := hmem x hx
      show x.id < s.nextJob
      rw [h1]; exact h.ids y hy
    · rw [hids]; exact h.idsNodup
    · intro x hx
      obtain ⟨y, hy, _, _, h1⟩ := hmem x hx
      show x.generation ≤ s.generation
      rw [h1]; exact h.gens y hy
    · intro q e hq hw
      obtain ⟨y, hy, h1, h2⟩ := h.working q e hq hw
      exact ⟨_, List.mem_map.mpr ⟨y, hy, rfl⟩, by split <;> exact h1, by split <;> exact h2⟩
  | close hcl =>
    refine ⟨h.events, h.pending, h.bound, h.queue, h.ids, h.idsNodup, h.gens, AMap.nodup_nil, h.residentNodup,
      h.metaNodup, h.metaKeys, h.residentKey, ?_, ?_, ?_⟩
    · intro q e hq; simp [shutdown, AMap.get] at hq
    · intro q e hq; simp [shutdown, AMap.get] at hq
    · intro q p e _ _ hq; simp [shutdown, AMap.get] at hq

end Verif.Backend
