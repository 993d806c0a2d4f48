import Verif.Props.Backend
import Verif.Lemmas.BackendEvict
/-!
# Properties: eviction (C33)
-/

namespace Verif.Backend

/-- A sweep is due: the JIT code is over its budget, or the sweep interval has passed. -/
def SweepDue (cfg : Config) (s : State) (usage : Nat) : Prop :=
  (0 < cfg.budget ∧ cfg.budget < usage) ∨ (cfg.idle.isSome = true ∧ cfg.sweepInterval ≤ s.now - s.lastSweep)

theorem shouldSweep_iff (cfg : Config) (s : State) (usage : Nat) :
    shouldSweep cfg s usage = true ↔ SweepDue cfg s usage := by
  unfold shouldSweep SweepDue
  split
  · rename_i h
    simp only [Bool.and_eq_true, decide_eq_true_eq] at h
    exact ⟨fun _ => .inl h, fun _ => rfl⟩
  · rename_i h
    simp only [Bool.and_eq_true, decide_eq_true_eq] at h
    simp only [Bool.and_eq_true, decide_eq_true_eq]
    exact ⟨.inr, fun h' => h'.elim (fun h1 => absurd h1 h) id⟩

/-- C33: the metadata that drives eviction covers exactly the resident programs. -/
theorem C33_metadata {cfg : Config} {pre per : AMap Key Program} (hs : GoodStart pre per) (evs : List Ev) (k : Key) :
    let s := run cfg (init pre per) evs
    (∃ t, s.residentMeta.get k = some t) ↔ ∃ p, s.resident.get k = some p := by
  have hi := inv_history (cfg := cfg) hs evs
  have := hi.metaKeys k
  rw [AMap.mem_keys_iff, AMap.mem_keys_iff] at this
  exact this

/-- C33: an observed hit makes now the program's last use and leaves the others alone. -/
theorem C33_hit (cfg : Config) (s : State) (k : Key) (rest : List (Key × Code)) (loads : Bool)
    (hopen : s.closed = false) (hev : s.events = (k, []) :: rest) (q : Key) :
    (step cfg s (.drain loads)).resident = s.resident ∧
    (step cfg s (.drain loads)).residentMeta.get q =
      if q = k ∧ (s.residentMeta.get k).isSome = true then some s.now else s.residentMeta.get q := by
  have h : step cfg s (.drain loads) =
      { s with
        events := rest
        stats := { s.stats with hits := s.stats.hits + 1 }
        residentMeta := s.residentMeta.update k fun _ => s.now } := by
    simp only [step, hopen, Bool.false_eq_true, if_false, hev, handleObserved, List.isEmpty_nil, if_true]
  rw [h]
  refine ⟨rfl, ?_⟩
  show AMap.get (s.residentMeta.update k fun _ => s.now) q = _
  rw [AMap.get_update]
  by_cases hq : q = k
  · subst hq
    cases s.residentMeta.get q <;> simp
  · simp [hq]

open Classical in
/-- C33: what a sweep removes. `order` lists the JIT programs that are not idle by last use, oldest first.
The sweep removes every program idle for longer than the limit, then the first `n` of `order`: nothing if
there is no budget or usage is within it; otherwise usage is over budget before each removal, and the
sweep stops early only when usage is within budget. Every other program stays. -/
theorem C33_sweep {cfg : Config} {pre per : AMap Key Program} (hs : GoodStart pre per) (evs : List Ev)
    (iter : List Key) (readings : Nat → Nat) (s t : State) (hs1 : s = run cfg (init pre per) evs)
    (ht : t = step cfg s (.sweep iter readings)) (hopen : s.closed = false) (hdue : SweepDue cfg s (readings 0)) :
    ∃ (order : List (Key × Nat)) (n : Nat),
      (∀ k u, (k, u) ∈ order ↔ s.residentMeta.get k = some u ∧ ¬ Idle cfg s k ∧
        ∃ p, s.resident.get k = some p ∧ p.kind = .jit) ∧
      (order.map (·.1)).Nodup ∧ order.Pairwise (fun a b => a.2 ≤ b.2) ∧
      n ≤ order.length ∧
      (0 < n → 0 < cfg.budget ∧ cfg.budget < readings 1) ∧
      (∀ j, j < n → cfg.budget < readings (2 + j)) ∧
      (0 < cfg.budget → cfg.budget < readings 1 → n < order.length → readings (2 + n) ≤ cfg.budget) ∧
      ∀ k, t.resident.get k =
        if Idle cfg s k ∨ k ∈ (order.take n).map (·.1) then none else s.resident.get k := by
  have hi := inv_history (cfg := cfg) hs evs
  rw [← hs1] at hi
  have hstep : t = sweepBudget cfg (afterIdle cfg s) iter readings := by
    rw [ht]
    simp only [step, hopen, Bool.false_eq_true, if_false]
    rw [sweep_eq, if_pos ((shouldSweep_iff cfg s (readings 0)).mpr hdue)]
  have hia : Inv cfg (histOf evs) (afterIdle cfg s) :=
    (afterIdle_steps hi).inv (fun _ _ _ h m => inv_micro h m) hi
  have hmem : ∀ k u, (k, u) ∈ lruOrder (afterIdle cfg s) iter ↔ s.residentMeta.get k = some u ∧ ¬ Idle cfg s k ∧
        ∃ p, s.resident.get k = some p ∧ p.kind = .jit := by
    intro k u
    rw [lruOrder_mem hia.metaNodup, (afterIdle_get hi.metaNodup k).1, (afterIdle_get hi.metaNodup k).2]
    by_cases hid : Idle cfg s k <;> simp [hid]
  have hsorted : (lruOrder (afterIdle cfg s) iter).Pairwise fun a b => a.2 ≤ b.2 := sortByTime_sorted _
  by_cases hb : cfg.budget > 0 && readings 1 > cfg.budget
  · obtain ⟨n, h1, h2, h3, h4⟩ := lruLoop_get cfg.budget readings (lruOrder (afterIdle cfg s) iter) 2 (afterIdle cfg s)
    have hb' := hb
    simp only [Bool.and_eq_true, decide_eq_true_eq] at hb'
    refine ⟨lruOrder (afterIdle cfg s) iter, n, hmem, lruOrder_nodup hia.metaNodup iter, hsorted, h1,
      fun _ => hb', h2, fun _ _ => h3, fun k => ?_⟩
    have : t = lruLoop cfg.budget readings 2 (afterIdle cfg s) (lruOrder (afterIdle cfg s) iter) := by
      rw [hstep]; unfold sweepBudget; rw [if_pos hb]; rfl
    rw [this, h4 k, (afterIdle_get hi.metaNodup k).1]
    by_cases h5 : Idle cfg s k <;> by_cases h6 : k ∈ ((lruOrder (afterIdle cfg s) iter).take n).map (·.1) <;>
      simp only [h5, h6, if_true, if_false, or_true, true_or, or_self]
  · have hb' := hb
    simp only [Bool.and_eq_true, decide_eq_true_eq] at hb'
    refine ⟨lruOrder (afterIdle cfg s) iter, 0, hmem, lruOrder_nodup hia.metaNodup iter, hsorted, Nat.zero_le _,
      fun h => absurd h (Nat.lt_irrefl 0), fun j h => absurd h (Nat.not_lt_zero j), fun h1 h2 => absurd ⟨h1, h2⟩ hb',
      fun k => ?_⟩
    have : t = afterIdle cfg s := by rw [hstep]; unfold sweepBudget; rw [if_neg hb]
    rw [this, (afterIdle_get hi.metaNodup k).1]
    simp

/-- C33: a sweep that is not due changes nothing. -/
theorem C33_not_due (cfg : Config) (s : State) (iter : List Key) (readings : Nat → Nat)
    (h : ¬ SweepDue cfg s (readings 0)) : step cfg s (.sweep iter readings) = s := by
  simp only [step]
  split
  · rfl
  · rw [sweep_eq, if_neg]
    intro h'; exact h ((shouldSweep_iff _ _ _).mp h')

/-- No event but a sweep or a clear ever removes a resident program. -/
theorem C33_only_sweeps {cfg : Config} (s : State) (e : Ev) (k : Key)
    (hr : (s.resident.get k).isSome = true) (hgone : (step cfg s e).resident.get k = none) :
    (∃ iter readings, e = .sweep iter readings) ∨ e = .clearResident ∨ ∃ ok, e = .clearAll ok := by
  have ins : ∀ (m : AMap Key Program) (q : Key) (p : Program), (m.get k).isSome = true →
      ((m.insert q p).get k).isSome = true := by
    intro m q p h
    rw [AMap.get_insert]
    split
    · rfl
    · exact h
  have keep : ∀ {t : State}, (t.resident.get k).isSome = true → t.resident.get k = none → False := by
    intro t h1 h2; rw [h2] at h1; cases h1
  have adm : ∀ (s : State) (kind : Kind) (q : Key) (code : Code) (n : Notifier) (mode : Mode) (loads : Bool),
      (s.resident.get k).isSome = true →
      ((tryAdmit cfg s kind q code n mode loads).resident.get k).isSome = true := by
    intro s kind q code n mode loads hr
    have hd : ∀ (s : State) (e : Entry) (m : Mode), (dispatch cfg s kind q e n m).resident = s.resident := by
      intro s e m
      unfold dispatch
      split
      · rw [release_eq]
      · split
        · rfl
        · rw [release_eq]
    have he : ∀ s : State, (admitEntry cfg s kind q n mode).resident = s.resident := by
      intro s
      unfold admitEntry
      split
      · rfl
      · split
        · rfl
        · split
          · simp only
            split
            · rfl
            · rw [hd]
          · rw [hd]
    unfold tryAdmit
    split
    · rw [release_eq]; exact hr
    · split
      · rw [release_eq]; exact hr
      · split
        · exact hr
        · split
          · rw [release_eq]; exact ins _ _ _ hr
          · rw [he]; unfold ensureEntry; split <;> exact hr
  cases e with
  | sweep iter readings => exact .inl ⟨iter, readings, rfl⟩
  | clearResident => exact .inr (.inl rfl)
  | clearAll ok => exact .inr (.inr ⟨ok, rfl⟩)
  | lookup en lk q code =>
    refine (keep ?_ hgone).elim
    unfold step pushEvent
    simp only
    unfold pushEvent.push
    split
    · split <;> exact hr
    · split <;> exact hr
    · exact hr
  | tick d => exact (keep hr hgone).elim
  | start i => exact (keep hr hgone).elim
  | clearPersisted ok =>
    refine (keep ?_ hgone).elim
    unfold step clearPersisted
    simp only
    split
    · exact hr
    · split <;> exact hr
  | shutdown =>
    refine (keep ?_ hgone).elim
    unfold step shutdown
    simp only
    split <;> exact hr
  | drain loads =>
    refine (keep ?_ hgone).elim
    simp only [step]
    split
    · exact hr
    · split
      · exact hr
      · unfold handleObserved
        split
        · exact hr
        · exact adm _ _ _ _ _ _ _ hr
  | compileJit q code n loads =>
    refine (keep ?_ hgone).elim
    simp only [step]
    split
    · exact hr
    · exact adm _ _ _ _ _ _ _ hr
  | prepareAot q code loads =>
    refine (keep ?_ hgone).elim
    simp only [step]
    split
    · exact hr
    · exact adm _ _ _ _ _ _ _ hr
  | result i o =>
    refine (keep ?_ hgone).elim
    simp only [step]
    split
    · exact hr
    · split
      · exact hr
      · rename_i j hj
        rw [handleResult_eq]
        split
        · exact hr
        · obtain ⟨_, _, _, _, _, _, _, _, _, _, hres, _⟩ := publish_shape cfg (afterJob s j) j o
          rcases hres with ⟨h1, _⟩ | ⟨kd, h1, _⟩
          · show ((publish cfg (afterJob s j) j o).resident.get k).isSome = true
            rw [h1]; exact hr
          · show ((publish cfg (afterJob s j) j o).resident.get k).isSome = true
            rw [h1]; exact ins _ _ _ hr

/-- Programs of three ages: `exA` published at time 0, `exB` at 6, a third at 7; at time 8 the first is
idle, and the budget (10, readings 30, 20, 20, 9) costs the older of the other two. -/
def exThree : List Ev :=
  [.compileJit exA [1] none true, .compileJit exB [2] none true, .start 0, .result 0 .jit, .tick 6, .start 1,
   .result 1 .jit, .tick 1, .compileJit ⟨3, 0⟩ [3] none true, .start 2, .result 2 .jit, .tick 1]

example :
    let s := run exCfg (init [] []) exThree
    let t := step exCfg s (.sweep [] fun i => if i = 3 then 9 else 30)
    s.resident.keys = [⟨3, 0⟩, exB, exA] ∧ t.resident.keys = [⟨3, 0⟩] := by decide

example : SweepDue exCfg (run exCfg (init [] []) exThree) 30 := .inl (by decide)

end Verif.Backend
