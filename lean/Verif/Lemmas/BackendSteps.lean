import Verif.Lemmas.BackendMicro
import Verif.Spec.Backend
/-!
# Lemmas: every backend event is a sequence of small steps
-/

namespace Verif.Backend

theorem dispatch_steps {cfg : Config} {H : Hist} {s : State} (kind : Kind) (k : Key)
    (e : Entry) (n : Notifier)
    (mode : Mode) (he : s.entries.get k = some e) (hp : e.phase = .cold) (hr : s.resident.get k = none)
    (hh : mode = .observed → cfg.hotThreshold ≤ e.hotness) (hcl : s.closed = false)
    (hn : ∀ c, n = some c → H.ask k c) (e' : Entry)
    (hc : e'.code = e.code) : Steps cfg H s n.toList (dispatch cfg s kind k e' n mode) := by
  unfold dispatch
  split
  · exact (Micro.refuse n).steps
  · rename_i hm
    split
    · rename_i ha
      rw [hc]
      exact (Micro.dispatch kind k e n mode he hp hr (by omega) ha hh hcl hn).steps
    · exact (Micro.refuse n).steps

theorem admitEntry_steps {cfg : Config} {H : Hist} {s : State} (kind : Kind) (k : Key)
    (n : Notifier) (mode : Mode) (hr : s.resident.get k = none) (hcl : s.closed = false)
    (hn : mode = .observed → n = none)
    (hA : ∀ c, n = some c → H.ask k c) (e : Entry) (he : s.entries.get k = some e) :
    Steps cfg H s n.toList (admitEntry cfg s kind k n mode) := by
  unfold admitEntry
  rw [he]
  simp only
  split
  · rename_i hp
    exact (Micro.wait k e n mode he hp hA).steps
  · rename_i hp
    cases mode with
    | observed =>
      simp only
      have h1 := (Micro.heat (cfg := cfg) (H := H) k e he hp hr).steps
      obtain rfl := hn rfl
      split
      · exact h1
      · rename_i hh
        refine h1.trans₀ (dispatch_steps (cfg := cfg) (s := { s with entries := s.entries.update k (fun e => { e with lastObserved := s.now, hotness := min (e.hotness + 1) U32_MAX }), trace := .miss k :: s.trace }) kind k
          { e with lastObserved := s.now, hotness := min (e.hotness + 1) U32_MAX } none .observed ?_ hp hr
          (fun _ => by simp only; omega) hcl hA e rfl)
        simp [AMap.get_update, he]
    | explicit =>
      have h1 := (Micro.touch (cfg := cfg) (H := H) k e he hp).steps
      show Steps cfg H s n.toList (dispatch cfg { s with entries := s.entries.update k (fun e => { e with lastObserved := s.now }) } kind k e n .explicit)
      refine h1.trans₀ (dispatch_steps (s := { s with entries := s.entries.update k (fun e => { e with lastObserved := s.now }) }) kind k { e with lastObserved := s.now } n .explicit ?_ hp hr
          (fun h => by cases h) hcl hA e rfl)
      simp [AMap.get_update, he]

theorem persistedProgram_some {cfg : Config} {s : State} {kind : Kind} {k : Key} {loads : Bool} {p : Program}
    (hp : (if kind = .aot then persistedProgram cfg s k loads else none) = some p) :
    ∃ q, cfg.hasStore = true ∧ s.persisted.get k = some q ∧ p = { q with key := k, kind := .aot } := by
  split at hp
  · unfold persistedProgram at hp
    split at hp
    · cases hp
    · rename_i hst
      split at hp
      · cases hp
      · rename_i q hq
        split at hp
        · simp only [Option.some.injEq] at hp
          exact ⟨q, by simpa using hst, hq, hp.symm⟩
        · cases hp
  · cases hp

theorem ensureEntry_get (s : State) (k : Key) (code : Code) (mode : Mode) :
    ∃ e, (ensureEntry s k code mode).entries.get k = some e := by
  unfold ensureEntry
  split
  · rename_i e he; exact ⟨e, he⟩
  · exact ⟨_, by simp only [AMap.get_insert]; rw [if_pos trivial]⟩

theorem tryAdmit_steps {cfg : Config} {H : Hist} {s : State} (kind : Kind) (k : Key)
    (code : Code) (n : Notifier) (mode : Mode) (loads : Bool) (hcl : s.closed = false)
    (hn : mode = .observed → n = none) (hS : H.code k code)
    (hA : ∀ c, n = some c → H.ask k c) :
    Steps cfg H s n.toList (tryAdmit cfg s kind k code n mode loads) := by
  unfold tryAdmit
  split
  · exact (Micro.refuse n).steps
  · rename_i hr
    have hr : s.resident.get k = none := by
      simpa [AMap.has] using hr
    split
    · exact (Micro.refuse n).steps
    · split
      · rename_i hcap
        simp only [Bool.and_eq_true, beq_iff_eq] at hcap
        obtain rfl := hn hcap.1.1
        exact .refl
      · rename_i hcap
        split
        · rename_i p hp
          obtain ⟨q, h1, h2, rfl⟩ := persistedProgram_some hp
          exact (Micro.load k q hr h1 h2).steps.trans₀ (Micro.refuse n).steps
        · cases he : s.entries.get k with
          | some e =>
            have : ensureEntry s k code mode = s := by simp [ensureEntry, he]
            rw [this]
            exact admitEntry_steps kind k n mode hr hcl hn hA e he
          | none =>
            obtain ⟨e, he'⟩ := ensureEntry_get s k code mode
            refine (Micro.track k code mode hr he hS hcl ?_).steps.trans₀ (admitEntry_steps kind k n mode ?_ ?_ hn hA e he')
            · intro hm
              simp only [hm, AMap.has, he, Option.isSome_none, Bool.and_eq_true, decide_eq_true_eq,
                beq_self_eq_true, Bool.not_false, true_and, and_self, Bool.true_and] at hcap
              simpa using hcap
            · simp [ensureEntry, he, hr]
            · simp [ensureEntry, he, hcl]

theorem evictIdle_resident (s : State) (k q : Key) :
    (evictIdle s k).resident.get q = if q = k then none else s.resident.get q := by
  have := (removeEntry_frame (removeResident s k) k).1
  simp only [evictIdle]
  rw [this, removeResident]
  exact AMap.get_erase _ _ _

theorem sweepIdle_steps {cfg : Config} {H : Hist} (hi : cfg.idle.isSome = true) (l : List Key) :
    ∀ s : State, l.Nodup → (∀ k ∈ l, (s.resident.get k).isSome = true) →
      Steps cfg H s [] (l.foldl evictIdle s) := by
  induction l with
  | nil => intro s _ _; exact .refl
  | cons k r ih =>
    intro s hn hr
    rw [List.nodup_cons] at hn
    refine (Micro.idle k hi (hr k List.mem_cons_self)).steps.trans₀ (ih _ hn.2 ?_)
    intro q hq
    rw [evictIdle_resident, if_neg]
    · exact hr q (List.mem_cons_of_mem _ hq)
    · intro he; subst he; exact hn.1 hq

/-- The keys evicted by phase 1. -/
def idleKeys (s : State) (idle : Nat) : List Key :=
  (s.residentMeta.filter fun p => s.now - p.2 > idle).map (·.1)

theorem idleKeys_nodup {s : State} (hn : AMap.Nodup s.residentMeta) (idle : Nat) :
    (idleKeys s idle).Nodup := AMap.nodup_filter hn _

theorem idleKeys_resident {cfg : Config} {H : Hist} {s : State} (h : Inv cfg H s) (idle : Nat) :
    ∀ k ∈ idleKeys s idle, (s.resident.get k).isSome = true := by
  intro k hk
  obtain ⟨x, hx, rfl⟩ := List.mem_map.mp hk
  have h1 : x.1 ∈ s.residentMeta.keys := List.mem_map.mpr ⟨x, (List.mem_filter.mp hx).1, rfl⟩
  obtain ⟨v, hv⟩ := (AMap.mem_keys_iff _ _).mp ((h.metaKeys _).mp h1)
  rw [hv]; rfl

theorem evictLru_resident (s : State) (k q : Key) :
    (evictLru s k).resident.get q = if q = k then none else s.resident.get q := by
  have := (removeEntry_frame (removeResident s k) k).1
  simp only [evictLru]
  rw [this, removeResident]
  exact AMap.get_erase _ _ _

theorem lruLoop_steps {cfg : Config} {H : Hist} (budget : Nat) (readings : Nat → Nat) (l : List (Key × Nat)) :
    ∀ (i : Nat) (s : State), (l.map (·.1)).Nodup →
      (∀ a ∈ l, ∃ p, s.resident.get a.1 = some p ∧ p.kind = .jit) →
      Steps cfg H s [] (lruLoop budget readings i s l) := by
  induction l with
  | nil => intro i s _ _; exact .refl
  | cons a r ih =>
    obtain ⟨k, t⟩ := a
    intro i s hn hj
    simp only [List.map_cons, List.nodup_cons] at hn
    unfold lruLoop
    split
    · exact .refl
    · obtain ⟨p, hp, hk⟩ := hj (k, t) List.mem_cons_self
      refine (Micro.lru k p hp hk).steps.trans₀ (ih (i + 1) _ hn.2 ?_)
      intro a ha
      obtain ⟨p', hp', hk'⟩ := hj a (List.mem_cons_of_mem _ ha)
      refine ⟨p', ?_, hk'⟩
      rw [evictLru_resident, if_neg]
      · exact hp'
      · intro he; exact hn.1 (by rw [← he]; exact List.mem_map.mpr ⟨a, ha, rfl⟩)

theorem mem_insertByTime (p a : Key × Nat) (l : List (Key × Nat)) :
    a ∈ insertByTime p l ↔ a = p ∨ a ∈ l := by
  induction l with
  | nil => simp [insertByTime]
  | cons q r ih =>
    unfold insertByTime
    split
    · simp
    · simp only [List.mem_cons, ih]
      constructor
      · rintro (h | h | h)
        · exact .inr (.inl h)
        · exact .inl h
        · exact .inr (.inr h)
      · rintro (h | h | h)
        · exact .inr (.inl h)
        · exact .inl h
        · exact .inr (.inr h)

theorem insertByTime_perm (p : Key × Nat) (l : List (Key × Nat)) : (insertByTime p l).Perm (p :: l) := by
  induction l with
  | nil => exact List.Perm.refl _
  | cons q r ih =>
    unfold insertByTime
    split
    · exact List.Perm.refl _
    · exact (List.Perm.cons q ih).trans (List.Perm.swap p q r)

theorem sortByTime_perm (l : List (Key × Nat)) : (sortByTime l).Perm l := by
  induction l with
  | nil => exact List.Perm.refl _
  | cons p r ih => exact (insertByTime_perm p _).trans (List.Perm.cons p ih)

theorem eraseDups_nodup {α : Type} [DecidableEq α] (l : List α) : l.eraseDups.Nodup := by
  induction hn : l.length using Nat.strongRecOn generalizing l with
  | ind n ih =>
    cases l with
    | nil => simp
    | cons a r =>
      rw [List.eraseDups_cons, List.nodup_cons]
      have hlen : (r.filter fun b => !b == a).length < n := by
        subst hn
        exact Nat.lt_succ_of_le (List.length_filter_le _ _)
      refine ⟨?_, ih _ hlen _ rfl⟩
      rw [List.mem_eraseDups]
      intro h
      simp at h

/-- The JIT programs of the resident map with their last use. -/
def jitMeta (s : State) : AMap Key Nat :=
  s.residentMeta.filter fun p =>
    match s.resident.get p.1 with
    | some q => q.kind == .jit
    | none => false

theorem jitMeta_get {s : State} (hn : AMap.Nodup s.residentMeta) (k : Key) (t : Nat) :
    (jitMeta s).get k = some t ↔
      s.residentMeta.get k = some t ∧ ∃ p, s.resident.get k = some p ∧ p.kind = .jit := by
  unfold jitMeta
  rw [AMap.get_filter hn, Option.filter_eq_some_iff]
  refine and_congr_right fun _ => ?_
  cases s.resident.get k with
  | none => simp
  | some p => simp

theorem lruCandidates_mem {s : State} (hn : AMap.Nodup s.residentMeta) (iter : List Key) (a : Key × Nat) :
    a ∈ lruCandidates s iter ↔ (jitMeta s).get a.1 = some a.2 := by
  have hnj : AMap.Nodup (jitMeta s) := AMap.nodup_filter hn _
  show a ∈ iter.eraseDups.filterMap (fun k => (AMap.get (jitMeta s) k).map fun t => (k, t)) ++
    (jitMeta s).filter (fun p => !iter.eraseDups.contains p.1) ↔ _
  rw [List.mem_append, List.mem_filterMap, List.mem_filter]
  constructor
  · rintro (⟨k, _, hk⟩ | ⟨ha, _⟩)
    · simp only [Option.map_eq_some_iff] at hk
      obtain ⟨t, ht, rfl⟩ := hk
      exact ht
    · exact AMap.get_of_mem hnj ha
  · intro h
    by_cases hm : a.1 ∈ iter.eraseDups
    · exact .inl ⟨a.1, hm, by rw [h]; rfl⟩
    · exact .inr ⟨AMap.mem_of_get h, by simpa using hm⟩

theorem lruCandidates_nodup {s : State} (hn : AMap.Nodup s.residentMeta) (iter : List Key) :
    ((lruCandidates s iter).map (·.1)).Nodup := by
  have hnj : AMap.Nodup (jitMeta s) := AMap.nodup_filter hn _
  show ((iter.eraseDups.filterMap (fun k => (AMap.get (jitMeta s) k).map fun t => (k, t)) ++
    (jitMeta s).filter (fun p => !iter.eraseDups.contains p.1)).map (·.1)).Nodup
  rw [List.map_append, List.nodup_append]
  refine ⟨?_, AMap.nodup_filter hnj _, ?_⟩
  · have hd := eraseDups_nodup iter
    revert hd
    generalize iter.eraseDups = l
    intro hd
    induction l with
    | nil => simp
    | cons k r ih =>
      rw [List.nodup_cons] at hd
      rw [List.filterMap_cons]
      split
      · exact ih hd.2
      · rename_i b hb
        simp only [Option.map_eq_some_iff] at hb
        obtain ⟨t, _, rfl⟩ := hb
        rw [List.map_cons, List.nodup_cons]
        refine ⟨?_, ih hd.2⟩
        intro hm
        obtain ⟨x, hx, hxk⟩ := List.mem_map.mp hm
        obtain ⟨k', hk', hx'⟩ := List.mem_filterMap.mp hx
        simp only [Option.map_eq_some_iff] at hx'
        obtain ⟨t', _, rfl⟩ := hx'
        simp only at hxk
        exact hd.1 (hxk ▸ hk')
  · intro a ha b hb hab
    subst hab
    obtain ⟨x, hx, rfl⟩ := List.mem_map.mp ha
    obtain ⟨y, hy, hyx⟩ := List.mem_map.mp hb
    obtain ⟨k', hk', hx'⟩ := List.mem_filterMap.mp hx
    simp only [Option.map_eq_some_iff] at hx'
    obtain ⟨t', _, rfl⟩ := hx'
    have := (List.mem_filter.mp hy).2
    simp only [hyx] at this
    simp [hk'] at this

/-- The order in which phase 3 considers programs. -/
def lruOrder (s : State) (iter : List Key) : List (Key × Nat) := sortByTime (lruCandidates s iter)

theorem lruOrder_mem {s : State} (hn : AMap.Nodup s.residentMeta) (iter : List Key) (a : Key × Nat) :
    a ∈ lruOrder s iter ↔ s.residentMeta.get a.1 = some a.2 ∧
      ∃ p, s.resident.get a.1 = some p ∧ p.kind = .jit := by
  unfold lruOrder
  rw [(sortByTime_perm _).mem_iff, lruCandidates_mem hn, jitMeta_get hn]

theorem lruOrder_nodup {s : State} (hn : AMap.Nodup s.residentMeta) (iter : List Key) :
    ((lruOrder s iter).map (·.1)).Nodup :=
  (List.Perm.nodup_iff ((sortByTime_perm _).map _)).mpr (lruCandidates_nodup hn iter)

/-- The state before phase 3. -/
def afterIdle (cfg : Config) (s : State) : State :=
  match cfg.idle with
  | some idle => sweepCold (sweepIdle { s with lastSweep := s.now } idle) idle
  | none => { s with lastSweep := s.now }

theorem sweep_eq (cfg : Config) (s : State) (iter : List Key) (readings : Nat → Nat) :
    sweep cfg s iter readings =
      if shouldSweep cfg s (readings 0) then sweepBudget cfg (afterIdle cfg s) iter readings else s := by
  unfold sweep afterIdle
  rfl

theorem misc_lastSweep {cfg : Config} {H : Hist} (s : State) : Micro cfg H none s { s with lastSweep := s.now } :=
  Micro.misc s.stats s.events s.now s.now s.residentMeta rfl rfl rfl rfl fun _ h => .inl h

theorem afterIdle_steps {cfg : Config} {H : Hist} {s : State} (h : Inv cfg H s) :
    Steps cfg H s [] (afterIdle cfg s) := by
  unfold afterIdle
  split
  · rename_i idle hid
    have h0 := misc_lastSweep (cfg := cfg) (H := H) s
    have h1 := inv_micro h h0
    exact (h0.steps.trans₀ (sweepIdle_steps (by rw [hid]; rfl) _ _ (idleKeys_nodup h1.metaNodup idle)
      (idleKeys_resident h1 idle))).trans₀ (Micro.cold _).steps
  · exact (misc_lastSweep s).steps

theorem sweep_steps {cfg : Config} {H : Hist} {s : State} (h : Inv cfg H s) (iter : List Key) (readings : Nat → Nat) :
    Steps cfg H s [] (sweep cfg s iter readings) := by
  rw [sweep_eq]
  split
  · have h1 := afterIdle_steps h
    refine h1.trans₀ ?_
    have hi : Inv cfg H (afterIdle cfg s) := h1.inv (fun _ _ _ h m => inv_micro h m) h
    unfold sweepBudget
    split
    · refine lruLoop_steps _ _ _ _ _ (lruOrder_nodup hi.metaNodup iter) ?_
      intro a ha
      exact ((lruOrder_mem hi.metaNodup iter a).mp ha).2
    · exact .refl
  · exact .refl

/-- The event's submissions and requests are in the history. -/
def Allows (H : Hist) (e : Ev) : Prop :=
  (∀ x ∈ submits e, H.code x.1 x.2) ∧ ∀ k c, asksFor e k c → H.ask k c

/-- The callers an event brings in. -/
def asks : Ev → List Nat
  | .compileJit _ _ n _ => n.toList
  | _ => []

/-- Every event is a sequence of small steps. -/
theorem step_steps {cfg : Config} {H : Hist} {s : State} (h : Inv cfg H s) (e : Ev)
    (hS : Allows H e) : Steps cfg H s (asks e) (step cfg s e) := by
  cases e with
  | lookup en lk k code =>
    have hpush : ∀ x, x.2 = [] ∨ H.code x.1 x.2 → Steps cfg H s [] (pushEvent.push cfg s x) := by
      intro x hx
      unfold pushEvent.push
      split
      · refine (Micro.misc s.stats (s.events ++ [x]) s.now s.lastSweep s.residentMeta rfl rfl rfl rfl ?_).steps
        intro y hy
        rcases List.mem_append.mp hy with hy | hy
        · exact .inl hy
        · rw [List.mem_singleton] at hy; subst hy; exact .inr hx
      · exact (Micro.misc { s.stats with eventsDropped := s.stats.eventsDropped + 1 } s.events s.now s.lastSweep
          s.residentMeta rfl rfl rfl rfl fun _ h => .inl h).steps
    simp only [step, pushEvent]
    split
    · exact hpush _ (.inl rfl)
    · exact hpush _ (.inr (hS.1 (k, code) List.mem_cons_self))
    · exact .refl
  | tick d =>
    exact (Micro.misc s.stats s.events (s.now + d) s.lastSweep s.residentMeta rfl rfl rfl rfl
      fun _ h => .inl h).steps
  | drain loads =>
    simp only [step]
    split
    · exact .refl
    · rename_i hcl
      have hcl : s.closed = false := by simpa using hcl
      split
      · exact .refl
      · rename_i k code r hev
        have hmem : ∀ x ∈ r, x ∈ s.events := by
          intro x hx; rw [hev]; exact List.mem_cons_of_mem _ hx
        unfold handleObserved
        split
        · exact (Micro.misc { s.stats with hits := s.stats.hits + 1 } r s.now s.lastSweep
            (s.residentMeta.update k fun _ => s.now) rfl rfl rfl (AMap.keys_update _ _ _)
            fun x hx => .inl (hmem x hx)).steps
        · rename_i hne
          refine (Micro.misc { s.stats with misses := s.stats.misses + 1 } r s.now s.lastSweep
            s.residentMeta rfl rfl rfl rfl fun x hx => .inl (hmem x hx)).steps.trans₀ ?_
          refine tryAdmit_steps (n := none) _ _ _ _ _ hcl (fun _ => rfl) ?_ (fun c h => by cases h)
          rcases h.events (k, code) (by rw [hev]; exact List.mem_cons_self) with h0 | h0
          · simp only at h0; rw [h0] at hne; simp at hne
          · exact h0
  | compileJit k code n loads =>
    simp only [step]
    split
    · exact (Micro.abandon n).steps
    · rename_i hcl
      exact tryAdmit_steps _ _ _ _ _ _ (by simpa using hcl) (fun h => by cases h)
        (hS.1 (k, code) List.mem_cons_self) (fun c h => hS.2 k c ⟨code, loads, by rw [h]⟩)
  | prepareAot k code loads =>
    simp only [step]
    split
    · exact .refl
    · rename_i hcl
      exact tryAdmit_steps (n := none) _ _ _ _ _ (by simpa using hcl) (fun h => by cases h)
        (hS.1 (k, code) List.mem_cons_self) (fun c h => by cases h)
  | clearResident =>
    simp only [step]
    split
    · exact .refl
    · exact Micro.clear.steps
  | clearPersisted ok =>
    simp only [step, clearPersisted]
    split
    · exact .refl
    · split
      · exact Micro.storeClear.steps
      · exact .refl
  | clearAll ok =>
    simp only [step, clearPersisted]
    split
    · exact .refl
    · split
      · exact (Micro.clear.steps).trans₀ Micro.storeClear.steps
      · exact Micro.clear.steps
  | start id => exact (Micro.start id).steps
  | result id o =>
    simp only [step]
    split
    · exact .refl
    · rename_i hcl
      split
      · exact .refl
      · rename_i j hj
        exact (Micro.result j o (List.mem_of_find?_eq_some hj) (by simpa using hcl)).steps
  | sweep iter readings =>
    simp only [step]
    split
    · exact .refl
    · exact sweep_steps h iter readings
  | shutdown =>
    simp only [step]
    split
    · exact .refl
    · rename_i hcl
      exact (Micro.close (by simpa using hcl)).steps

theorem inv_step {cfg : Config} {H : Hist} {s : State} (h : Inv cfg H s) (e : Ev)
    (hS : Allows H e) : Inv cfg H (step cfg s e) :=
  (step_steps h e hS).inv (fun _ _ _ h m => inv_micro h m) h

theorem run_snoc (cfg : Config) (s : State) (l : List Ev) (e : Ev) :
    run cfg s (l ++ [e]) = step cfg (run cfg s l) e := by
  simp [run, List.foldl_append]

theorem run_append (cfg : Config) (s : State) (l l' : List Ev) :
    run cfg s (l ++ l') = run cfg (run cfg s l) l' := by
  simp [run, List.foldl_append]

theorem inv_run {cfg : Config} {H : Hist} {s : State} (h : Inv cfg H s) (evs : List Ev)
    (hS : ∀ e ∈ evs, Allows H e) : Inv cfg H (run cfg s evs) := by
  induction evs generalizing s with
  | nil => exact h
  | cons e r ih =>
    exact ih (inv_step h e (hS e List.mem_cons_self)) fun e' he' => hS e' (List.mem_cons_of_mem _ he')

theorem Steps.both {cfg : Config} {H : Hist} {P : State → Prop}
    (hP : ∀ c s t, Inv cfg H s → P s → Micro cfg H c s t → P t) {l : List Nat} {s t : State}
    (hst : Steps cfg H s l t) (hi : Inv cfg H s) (hp : P s) : Inv cfg H t ∧ P t := by
  induction hst with
  | refl => exact ⟨hi, hp⟩
  | tail _ m ih => exact ⟨inv_micro ih.1 m, hP _ _ _ ih.1 ih.2 m⟩

/-- Invariants of the small steps (given the basic one) hold along every history. -/
theorem run_inv {cfg : Config} {H : Hist} {P : State → Prop}
    (hP : ∀ c s t, Inv cfg H s → P s → Micro cfg H c s t → P t) {s : State} (h : Inv cfg H s) (hs : P s)
    (evs : List Ev) (hS : ∀ e ∈ evs, Allows H e) : P (run cfg s evs) := by
  induction evs generalizing s with
  | nil => exact hs
  | cons e r ih =>
    have := (step_steps h e (hS e List.mem_cons_self)).both hP h hs
    exact ih this.1 this.2 fun e' he' => hS e' (List.mem_cons_of_mem _ he')

end Verif.Backend
