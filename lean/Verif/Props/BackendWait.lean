import Verif.Props.Backend
import Verif.Lemmas.BackendWait
import Verif.Lemmas.BackendEvict
/-!
# Properties: callers blocked in a synchronous compile (C32)
-/

namespace Verif.Backend

/-- How often caller `c` is blocked: on a job it started, or on an entry of somebody else's job. A stopped
backend blocks nobody. -/
def blockedCount (s : State) (c : Nat) : Nat :=
  if s.closed then 0
  else (s.entries.flatMap (·.2.waiters)).count (some c) + (s.jobs.map (·.notifier)).count (some c)

theorem asks_count (e : Ev) (c : Nat) : (asks e).count c = askCount [e] c := by
  cases e with
  | compileJit k code n loads =>
    cases n with
    | none => simp [asks, askCount]
    | some d => simp [asks, askCount, List.count_cons, List.countP_cons]
  | _ => simp [asks, askCount]

theorem run_total {cfg : Config} {H : Hist} (c : Nat) (evs : List Ev) : ∀ s, Inv cfg H s → CInv s →
    (∀ e ∈ evs, Allows H e) → total (run cfg s evs) c = askCount evs c + total s c := by
  induction evs with
  | nil => intro s _ _ _; simp [run, askCount]
  | cons e r ih =>
    intro s hi hc hS
    obtain ⟨hi', hc', ht⟩ := steps_total (step_steps hi e (hS e List.mem_cons_self)) hi hc c
    show total (run cfg (step cfg s e) r) c = _
    rw [ih _ hi' hc' (fun e he => hS e (List.mem_cons_of_mem _ he)), ht, asks_count]
    simp only [askCount, List.countP_cons, List.countP_nil]
    omega

/-- C32: no request is lost or answered twice. Each synchronous request is either answered, given up (its
channel closed), or still blocked. -/
theorem C32_conservation {cfg : Config} {pre per : AMap Key Program} (hs : GoodStart pre per) (evs : List Ev)
    (c : Nat) :
    let s := run cfg (init pre per) evs
    askCount evs c = s.released.count c + s.abandoned.count c + blockedCount s c := by
  have h := run_total c evs (init pre per) (inv_init cfg (histOf evs) hs) (fun h => by cases h) (allows_histOf evs)
  have h0 : total (init pre per) c = 0 := by simp [total, heldCount, inEntries, inJobs, init]
  rw [h0, Nat.add_zero] at h
  exact h.symm

/-- C32: a blocked caller asked for the key it is blocked on, and a compilation of that key is in flight. -/
theorem C32_blocked {cfg : Config} {pre per : AMap Key Program} (hs : GoodStart pre per) (evs : List Ev)
    (c : Nat) (k : Key) (h : Waiting (run cfg (init pre per) evs) c k) :
    (∃ e ∈ evs, asksFor e k c) ∧ ∃ i, (i, k) ∈ inFlight (run cfg (init pre per) evs).trace := by
  have hi := inv_history (cfg := cfg) hs evs
  have ht := tinv_history (cfg := cfg) hs evs
  have hw := history_inv (cfg := cfg) hs evs (P := WInv (histOf evs))
    (fun c k hw => by
      rcases hw with ⟨j, hj, _⟩ | ⟨e, he, _⟩
      · simp [init] at hj
      · simp [init, AMap.get] at he) winv_micro
  refine ⟨hw c k h, ?_⟩
  rw [← ht.jobs]
  rcases h with ⟨j, hj, hk, _⟩ | ⟨e, he, hc⟩
  · exact ⟨j.id, List.mem_map.mpr ⟨j, hj, by simp [pair, hk]⟩⟩
  · cases hp : e.phase with
    | cold => rw [hi.coldWaiters k e he hp] at hc; simp at hc
    | working =>
      obtain ⟨j, hj, hk, _⟩ := hi.working k e he hp
      exact ⟨j.id, List.mem_map.mpr ⟨j, hj, by simp [pair, hk]⟩⟩

/-- The step from `s` to `t` answers caller `c`. -/
def Answers (s t : State) (c : Nat) : Prop := s.released.count c < t.released.count c

/-- The step from `s` to `t` closes the channel of caller `c` without an answer. -/
def GivesUp (s t : State) (c : Nat) : Prop := s.abandoned.count c < t.abandoned.count c

/-- No slot for another compilation. -/
def Saturated (cfg : Config) (s : State) : Prop :=
  cfg.maxPending ≤ (inFlight s.trace).length ∨ cfg.hasWorkers = false ∨
    cfg.queueCapacity ≤ (s.jobs.filter (·.queued)).length

theorem answers_cons {s t : State} {n : Notifier} {c : Nat} (h : t.released = n.toList ++ s.released)
    (ha : Answers s t c) : n = some c := by
  unfold Answers at ha
  rw [h, List.count_append] at ha
  cases n with
  | none => simp at ha
  | some d =>
    by_cases hd : d = c
    · rw [hd]
    · simp [hd] at ha

/-- Admission answers at most its own caller, and only when the program is there or the request is refused. -/
theorem tryAdmit_answers {cfg : Config} {s : State} (hp : s.pendingJobs = (inFlight s.trace).length)
    {kind : Kind} {k : Key} {code : Code} {n : Notifier} {mode : Mode} {loads : Bool} {c : Nat}
    (ha : Answers s (tryAdmit cfg s kind k code n mode loads) c) :
    n = some c ∧ ((tryAdmit cfg s kind k code n mode loads).resident.has k = true ∨ ¬ Eligible cfg code ∨
      Saturated cfg s) := by
  have hdisp : ∀ (s1 : State) (e : Entry) (m : Mode), s1.released = s.released → s1.pendingJobs = s.pendingJobs →
      s1.jobs = s.jobs → Answers s (dispatch cfg s1 kind k e n m) c → n = some c ∧ Saturated cfg s := by
    intro s1 e m h1 h2 h3 ha
    unfold dispatch at ha
    split at ha
    · rename_i h
      refine ⟨answers_cons (by rw [release_eq, h1]) ha, .inl ?_⟩
      rw [← hp, ← h2]; exact h
    · split at ha
      · simp [Answers, h1] at ha
      · rename_i h
        refine ⟨answers_cons (by rw [release_eq, h1]) ha, .inr ?_⟩
        simp only [poolAccepts, h3, Bool.and_eq_true, decide_eq_true_eq, not_and, Nat.not_lt] at h
        cases hw : cfg.hasWorkers with
        | false => exact .inl rfl
        | true => exact .inr (h hw)
  have hadm : ∀ (s1 : State), s1.released = s.released → s1.pendingJobs = s.pendingJobs → s1.jobs = s.jobs →
      Answers s (admitEntry cfg s1 kind k n mode) c → n = some c ∧ Saturated cfg s := by
    intro s1 h1 h2 h3 ha
    unfold admitEntry at ha
    split at ha
    · simp [Answers, h1] at ha
    · split at ha
      · simp [Answers, h1] at ha
      · split at ha
        · simp only at ha
          split at ha
          · simp [Answers, h1] at ha
          · exact hdisp _ _ _ (by exact h1) (by exact h2) (by exact h3) ha
        · exact hdisp _ _ _ (by exact h1) (by exact h2) (by exact h3) ha
  unfold tryAdmit at ha ⊢
  by_cases c1 : s.resident.has k = true
  · rw [if_pos c1] at ha ⊢
    refine ⟨answers_cons (by rw [release_eq]) ha, .inl ?_⟩
    rw [release_eq]; exact c1
  · rw [if_neg c1] at ha ⊢
    by_cases c2 : (!shouldCompile cfg code) = true
    · rw [if_pos c2] at ha ⊢
      refine ⟨answers_cons (by rw [release_eq]) ha, .inr (.inl ?_)⟩
      intro he
      rw [(shouldCompile_iff cfg code).mpr he] at c2
      simp at c2
    · rw [if_neg c2] at ha ⊢
      by_cases c3 : (mode == Mode.observed && !s.entries.has k && decide (s.entries.length ≥ cfg.maxPending * 10)) = true
      · rw [if_pos c3] at ha
        simp [Answers] at ha
      · rw [if_neg c3] at ha ⊢
        generalize (if kind = .aot then persistedProgram cfg s k loads else none) = q at ha ⊢
        cases q with
        | some p =>
          simp only at ha ⊢
          refine ⟨answers_cons (by rw [release_eq]; rfl) ha, .inl ?_⟩
          rw [release_eq]
          simp [insertResident, AMap.has, AMap.get_insert]
        | none =>
          simp only at ha ⊢
          have := hadm _ (by unfold ensureEntry; split <;> rfl) (by unfold ensureEntry; split <;> rfl)
            (by unfold ensureEntry; split <;> rfl) ha
          exact ⟨this.1, .inr (.inr this.2)⟩

theorem foldl_evictIdle_released (l : List Key) : ∀ s : State, (l.foldl evictIdle s).released = s.released := by
  induction l with
  | nil => intro s; rfl
  | cons k r ih =>
    intro s
    rw [List.foldl_cons, ih]
    exact (removeEntry_frame (removeResident s k) k).2.2.2.2.2.2.2.2.2.1

theorem lruLoop_released (budget : Nat) (readings : Nat → Nat) (l : List (Key × Nat)) : ∀ (i : Nat) (s : State),
    (lruLoop budget readings i s l).released = s.released := by
  induction l with
  | nil => intro i s; rfl
  | cons a r ih =>
    intro i s
    obtain ⟨k, t⟩ := a
    unfold lruLoop
    split
    · rfl
    · rw [ih]
      exact (removeEntry_frame (removeResident s k) k).2.2.2.2.2.2.2.2.2.1

theorem sweep_released (cfg : Config) (s : State) (iter : List Key) (readings : Nat → Nat) :
    (sweep cfg s iter readings).released = s.released := by
  have h1 : (afterIdle cfg s).released = s.released := by
    unfold afterIdle
    split
    · exact foldl_evictIdle_released _ _
    · rfl
  rw [sweep_eq]
  split
  · unfold sweepBudget
    split
    · rw [lruLoop_released, h1]
    · exact h1
  · rfl

theorem id_inj {l : List Job} (hn : (l.map (·.id)).Nodup) {x j : Job} (hx : x ∈ l) (hj : j ∈ l)
    (h : x.id = j.id) : x = j := by
  induction l with
  | nil => simp at hx
  | cons a r ih =>
    simp only [List.map_cons, List.nodup_cons] at hn
    rcases List.mem_cons.mp hx with rfl | hx' <;> rcases List.mem_cons.mp hj with rfl | hj'
    · rfl
    · exact absurd (List.mem_map.mpr ⟨j, hj', h.symm⟩) hn.1
    · exact absurd (List.mem_map.mpr ⟨x, hx', h⟩) hn.1
    · exact ih hn.2 hx' hj'

/-- C32, what holds: a caller is answered only (1) by its own request, when the program is resident after
it, the code is ineligible, or no slot is free; (2) by the result of a compilation of the key it is blocked
on, when the program is resident afterwards, the compilation failed, or the compilation was dispatched
before the last clear; (3) by a clear while it is blocked. Missing from the full claim: in the last case of
(2) the caller may have asked after that clear (`C32_release_fails`). -/
theorem C32_release_partial {cfg : Config} {pre per : AMap Key Program} (hs : GoodStart pre per) (evs : List Ev)
    (e : Ev) (c : Nat) (s t : State) (hs1 : s = run cfg (init pre per) evs) (ht : t = step cfg s e)
    (ha : Answers s t c) :
    (∃ k code loads, e = .compileJit k code (some c) loads ∧
      (t.resident.has k = true ∨ ¬ Eligible cfg code ∨ Saturated cfg s)) ∨
    (∃ i o k, e = .result i o ∧ Waiting s c k ∧ (i, k) ∈ inFlight s.trace ∧
      (t.resident.has k = true ∨ t.stats.failed = s.stats.failed + 1 ∨
        (i, k) ∉ inFlight (sinceClear s.trace))) ∨
    ((e = .clearResident ∨ ∃ ok, e = .clearAll ok) ∧ ∃ k, Waiting s c k) := by
  have hi := inv_history (cfg := cfg) hs evs
  have htr := tinv_history (cfg := cfg) hs evs
  rw [← hs1] at hi htr
  have hp : s.pendingJobs = (inFlight s.trace).length := by
    rw [hi.pending, ← htr.jobs, List.length_map]
  have hclear : Answers s (clearResident s) c → ∃ k, Waiting s c k := by
    intro h
    unfold Answers clearResident at h
    rw [releaseAll_eq] at h
    simp only [List.count_append, List.count_reverse, count_filterMap_id] at h
    have h : 0 < (s.entries.flatMap (·.2.waiters)).count (some c) := by omega
    rw [List.count_pos_iff, List.mem_flatMap] at h
    obtain ⟨x, hx, hc⟩ := h
    exact ⟨x.1, .inr ⟨x.2, AMap.get_of_mem hi.entriesNodup hx, hc⟩⟩
  have irr : ∀ {t : State}, t.released = s.released → Answers s t c → False := by
    intro t h1 h2; simp [Answers, h1] at h2
  subst ht
  cases e with
  | lookup en lk k code =>
    refine (irr ?_ ha).elim
    unfold step pushEvent
    simp only
    unfold pushEvent.push
    split
    · split <;> rfl
    · split <;> rfl
    · rfl
  | tick d => exact (irr rfl ha).elim
  | start i => exact (irr rfl ha).elim
  | clearPersisted ok =>
    refine (irr ?_ ha).elim
    unfold step clearPersisted
    simp only
    split
    · rfl
    · split <;> rfl
  | shutdown =>
    refine (irr ?_ ha).elim
    unfold step shutdown
    simp only
    split <;> rfl
  | sweep iter readings =>
    refine (irr ?_ ha).elim
    simp only [step]
    split
    · rfl
    · exact sweep_released _ _ _ _
  | drain loads =>
    exfalso
    simp only [step] at ha
    split at ha
    · exact irr rfl ha
    · split at ha
      · exact irr rfl ha
      · rename_i k code r _
        unfold handleObserved at ha
        split at ha
        · exact irr rfl ha
        · refine absurd (tryAdmit_answers (s := { s with
            events := r, stats := { s.stats with misses := s.stats.misses + 1 } }) hp ha).1 (by simp)
  | compileJit k code n loads =>
    left
    simp only [step] at ha ⊢
    split at ha
    · exact (irr rfl ha).elim
    · rename_i hcl
      rw [if_neg hcl]
      obtain ⟨rfl, h⟩ := tryAdmit_answers hp ha
      exact ⟨k, code, loads, rfl, h⟩
  | prepareAot k code loads =>
    exfalso
    simp only [step] at ha
    split at ha
    · exact irr rfl ha
    · exact absurd (tryAdmit_answers hp ha).1 (by simp)
  | clearResident =>
    simp only [step] at ha
    split at ha
    · exact (irr rfl ha).elim
    · exact .inr (.inr ⟨.inl rfl, hclear ha⟩)
  | clearAll ok =>
    simp only [step] at ha
    split at ha
    · exact (irr rfl ha).elim
    · refine .inr (.inr ⟨.inr ⟨ok, rfl⟩, hclear ?_⟩)
      unfold clearPersisted at ha
      split at ha <;> exact ha
  | result i o =>
    right; left
    simp only [step] at ha ⊢
    split at ha
    · exact (irr rfl ha).elim
    · rename_i hcl
      rw [if_neg hcl]
      split at ha
      · exact (irr rfl ha).elim
      · rename_i j hj
        have hjm := List.mem_of_find?_eq_some hj
        have hji : j.id = i := by
          have := List.find?_some hj
          simp only [Bool.and_eq_true, decide_eq_true_eq] at this
          exact this.1
        subst hji
        refine ⟨j.id, o, j.key, rfl, ?_, ?_, ?_⟩
        · have hcnt : 0 < (j.notifier :: takeWaiters s j.key).count (some c) := by
            unfold Answers at ha
            rw [handleResult_eq] at ha
            split at ha <;>
            · simp only [List.count_append, List.count_reverse, count_filterMap_id] at ha
              omega
          rw [List.count_pos_iff, List.mem_cons] at hcnt
          rcases hcnt with h | h
          · exact .inl ⟨j, hjm, rfl, h.symm⟩
          · unfold takeWaiters at h
            split at h
            · simp at h
            · rename_i e he
              exact .inr ⟨e, he, h⟩
        · rw [← htr.jobs]; exact List.mem_map.mpr ⟨j, hjm, rfl⟩
        · rw [handleResult_eq]
          split
          · rename_i hg
            refine .inr (.inr ?_)
            rw [← htr.now]
            intro hmem
            unfold current at hmem
            obtain ⟨x, hx, hxe⟩ := List.mem_map.mp hmem
            obtain ⟨hx1, hx2⟩ := List.mem_filter.mp hx
            simp only [pair, Prod.mk.injEq] at hxe
            have : x = j := id_inj hi.idsNodup hx1 hjm hxe.1
            subst this
            simp at hx2
            exact hg hx2
          · obtain ⟨_, _, _, _, _, _, _, _, _, _, hres, _⟩ := publish_shape cfg (afterJob s j) j o
            rcases hres with ⟨_, _, _, h4⟩ | ⟨kd, h1, _⟩
            · exact .inr (.inl h4)
            · left
              simp only [AMap.has, h1, AMap.get_insert, if_true, Option.isSome_some]

/-- Caller 8 asks after a clear and waits for the new compilation of its key; the late result of the old
compilation answers it although the new one is still running. -/
def exEarly : List Ev :=
  [.compileJit exA [1] (some 7) true, .start 0, .clearResident, .compileJit exA [1] none true,
   .compileJit exA [1] (some 8) true]

/-- C32 does not hold of the code: an answer although nothing is resident, nothing failed, and the caller
asked after the last clear. -/
theorem C32_release_fails :
    let s := run exCfg (init [] []) exEarly
    let t := step exCfg s (.result 0 .jit)
    s.released.count 8 < t.released.count 8 ∧ t.resident.has exA = false ∧ t.stats.failed = s.stats.failed ∧
    (∃ older, s.trace = .dispatch 1 exA .explicit :: .track exA :: .cleared :: older) ∧
    (1, exA) ∈ inFlight t.trace := by
  refine ⟨by decide, by decide, by decide, ⟨[.dispatch 0 exA .explicit, .track exA], by decide⟩, by decide⟩

theorem foldl_evictIdle_abandoned (c : Nat) (l : List Key) : ∀ s : State,
    s.abandoned.count c < (l.foldl evictIdle s).abandoned.count c →
    ∃ k ∈ l, ∃ e, s.entries.get k = some e ∧ some c ∈ e.waiters := by
  induction l with
  | nil => intro s h; simp at h
  | cons k r ih =>
    intro s h
    rw [List.foldl_cons] at h
    by_cases h1 : (evictIdle s k).abandoned.count c < (r.foldl evictIdle (evictIdle s k)).abandoned.count c
    · obtain ⟨q, hq, e, he, hc⟩ := ih _ h1
      refine ⟨q, List.mem_cons_of_mem _ hq, e, ?_, hc⟩
      have h2 : (evictIdle s k).entries.get q = if q = k then none else (removeResident s k).entries.get q :=
        removeEntry_entries _ _ _
      rw [h2] at he
      split at he
      · cases he
      · exact he
    · have h2 : s.abandoned.count c < (evictIdle s k).abandoned.count c := by omega
      refine ⟨k, List.mem_cons_self, ?_⟩
      have h3 : (evictIdle s k).abandoned = (removeEntry (removeResident s k) k).abandoned := rfl
      rw [h3] at h2
      unfold removeEntry at h2
      split at h2
      · simp [removeResident] at h2
      · rename_i e he
        refine ⟨e, he, ?_⟩
        simp only [abandonAll, List.count_append, count_filterMap_id] at h2
        rw [← List.count_pos_iff]
        simp only [removeResident] at h2
        omega

theorem lruLoop_abandoned (budget : Nat) (readings : Nat → Nat) (l : List (Key × Nat)) : ∀ (i : Nat) (s : State),
    (∀ a ∈ l, ∀ e, s.entries.get a.1 = some e → e.waiters = []) →
    (lruLoop budget readings i s l).abandoned = s.abandoned := by
  induction l with
  | nil => intro i s _; rfl
  | cons a r ih =>
    intro i s h
    obtain ⟨k, t⟩ := a
    unfold lruLoop
    split
    · rfl
    · rw [ih]
      · show (removeEntry (removeResident s k) k).abandoned = _
        unfold removeEntry
        split
        · rfl
        · rename_i e he
          simp only [abandonAll, h (k, t) List.mem_cons_self e he]
          rfl
      · intro a ha e he
        have h2 : (evictLru s k).entries.get a.1 = if a.1 = k then none else (removeResident s k).entries.get a.1 :=
          removeEntry_entries _ _ _
        rw [h2] at he
        split at he
        · cases he
        · exact h a (List.mem_cons_of_mem _ ha) e he

theorem tryAdmit_abandoned (cfg : Config) (s : State) (kind : Kind) (k : Key) (code : Code) (n : Notifier)
    (mode : Mode) (loads : Bool) : (tryAdmit cfg s kind k code n mode loads).abandoned = s.abandoned := by
  have hd : ∀ (s : State) (e : Entry) (m : Mode), (dispatch cfg s kind k e n m).abandoned = s.abandoned := by
    intro s e m
    unfold dispatch
    split
    · rw [release_eq]
    · split
      · rfl
      · rw [release_eq]
  have he : ∀ s : State, (admitEntry cfg s kind k n mode).abandoned = s.abandoned := by
    intro s
    unfold admitEntry
    split
    · rfl
    · split
      · rfl
      · split
        · simp only
          split
          · rfl
          · rw [hd]
        · rw [hd]
  unfold tryAdmit
  split
  · rw [release_eq]
  · split
    · rw [release_eq]
    · split
      · rfl
      · split
        · rw [release_eq]; rfl
        · rw [he]; unfold ensureEntry; split <;> rfl

/-- C32, what holds: a caller's channel is closed without an answer only by a shutdown, by asking a backend
that was shut down, or by a sweep that finds the program under its key resident and idle. Missing from the
full claim: the third case (`C32_answer_fails`). -/
theorem C32_answer_partial {cfg : Config} {pre per : AMap Key Program} (hs : GoodStart pre per) (evs : List Ev)
    (e : Ev) (c : Nat) (s t : State) (hs1 : s = run cfg (init pre per) evs) (ht : t = step cfg s e)
    (ha : GivesUp s t c) :
    e = .shutdown ∨ (s.closed = true ∧ ∃ k code loads, e = .compileJit k code (some c) loads) ∨
    ∃ iter readings k, e = .sweep iter readings ∧ Waiting s c k ∧ Idle cfg s k := by
  have hi := inv_history (cfg := cfg) hs evs
  rw [← hs1] at hi
  have irr : ∀ {t : State}, t.abandoned = s.abandoned → GivesUp s t c → False := by
    intro t h1 h2; simp [GivesUp, h1] at h2
  subst ht
  cases e with
  | lookup en lk k code =>
    refine (irr ?_ ha).elim
    unfold step pushEvent
    simp only
    unfold pushEvent.push
    split
    · split <;> rfl
    · split <;> rfl
    · rfl
  | tick d => exact (irr rfl ha).elim
  | start i => exact (irr rfl ha).elim
  | clearPersisted ok =>
    refine (irr ?_ ha).elim
    unfold step clearPersisted
    simp only
    split
    · rfl
    · split <;> rfl
  | shutdown => exact .inl rfl
  | drain loads =>
    refine (irr ?_ ha).elim
    simp only [step]
    split
    · rfl
    · split
      · rfl
      · unfold handleObserved
        split
        · rfl
        · rw [tryAdmit_abandoned]
  | compileJit k code n loads =>
    simp only [step] at ha
    split at ha
    · rename_i hcl
      refine .inr (.inl ⟨hcl, k, code, loads, ?_⟩)
      cases n with
      | none => simp [GivesUp, abandonAll] at ha
      | some d =>
        by_cases hd : d = c
        · rw [hd]
        · simp [GivesUp, abandonAll, hd] at ha
    · exact (irr (tryAdmit_abandoned _ _ _ _ _ _ _ _) ha).elim
  | prepareAot k code loads =>
    refine (irr ?_ ha).elim
    simp only [step]
    split
    · rfl
    · exact tryAdmit_abandoned _ _ _ _ _ _ _ _
  | clearResident =>
    refine (irr ?_ ha).elim
    simp only [step]
    split
    · rfl
    · unfold clearResident; rw [releaseAll_eq]
  | clearAll ok =>
    refine (irr ?_ ha).elim
    simp only [step]
    split
    · rfl
    · unfold clearPersisted clearResident; rw [releaseAll_eq]; split <;> rfl
  | result i o =>
    refine (irr ?_ ha).elim
    simp only [step]
    split
    · rfl
    · split
      · rfl
      · rename_i j hj
        rw [handleResult_eq]
        split
        · rfl
        · exact (publish_shape cfg (afterJob s j) j o).2.2.2.2.2.2.1
  | sweep iter readings =>
    right; right
    simp only [step] at ha
    split at ha
    · exact (irr rfl ha).elim
    · rw [sweep_eq] at ha
      split at ha
      · have hia : Inv cfg (histOf evs) (afterIdle cfg s) :=
          (afterIdle_steps hi).inv (fun _ _ _ h m => inv_micro h m) hi
        have h1 : (sweepBudget cfg (afterIdle cfg s) iter readings).abandoned = (afterIdle cfg s).abandoned := by
          unfold sweepBudget
          split
          · apply lruLoop_abandoned
            intro a haa e he
            obtain ⟨_, p, hp1, hp2⟩ := (lruOrder_mem hia.metaNodup iter a).mp haa
            exact hia.coldWaiters _ e he (hia.jitDone _ p e hp1 hp2 he)
          · rfl
        unfold GivesUp at ha
        rw [h1] at ha
        unfold afterIdle at ha
        split at ha
        · rename_i d hd
          obtain ⟨k, hk, e, he, hc⟩ := foldl_evictIdle_abandoned c
            (idleKeys { s with lastSweep := s.now } d) { s with lastSweep := s.now } ha
          obtain ⟨t, ht1, ht2⟩ := (mem_idleKeys (s := { s with lastSweep := s.now }) hi.metaNodup d k).mp hk
          exact ⟨iter, readings, k, rfl, .inr ⟨e, he, hc⟩, d, t, hd, ht1, ht2⟩
        · simp at ha
      · exact (irr rfl ha).elim

/-- The backend uses JIT compilation; a persisted artifact for `exA` exists. Caller 7's request starts a
compilation, caller 8 waits for it; preparing the artifact makes the program resident meanwhile, and once
it has been idle long enough, a sweep drops caller 8. -/
def exDropped : List Ev :=
  [.compileJit exA [1] (some 7) true, .compileJit exA [1] (some 8) true, .prepareAot exA [1] true, .tick 10]

/-- C32 does not hold of the code: a blocked caller is dropped by a sweep, without a clear or shutdown. -/
theorem C32_answer_fails :
    let s := run exCfg (init [] [(exA, ⟨exA, .aot, [1], .preloaded⟩)]) exDropped
    let t := step exCfg s (.sweep [] fun _ => 0)
    s.abandoned.count 8 < t.abandoned.count 8 ∧ t.closed = false ∧ t.released = [] := by decide

/-- The regular case: caller 8 waits for caller 7's compilation, both are answered by its result. -/
example :
    let s := run exCfg (init [] []) [.compileJit exA [1] (some 7) true, .compileJit exA [1] (some 8) true, .start 0]
    let t := step exCfg s (.result 0 .jit)
    blockedCount s 7 = 1 ∧ blockedCount s 8 = 1 ∧ s.released = [] ∧
    t.released = [8, 7] ∧ blockedCount t 8 = 0 ∧ t.resident.has exA = true := by decide

example : Waiting (run exCfg (init [] []) [.compileJit exA [1] (some 7) true, .compileJit exA [1] (some 8) true])
    8 exA := .inr ⟨_, rfl, by decide⟩

end Verif.Backend
