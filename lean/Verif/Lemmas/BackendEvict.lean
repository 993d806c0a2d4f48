import Verif.Lemmas.BackendSteps
/-!
# Lemmas: what a sweep removes
-/

namespace Verif.Backend

theorem evictIdle_meta (s : State) (k q : Key) :
    (evictIdle s k).residentMeta.get q = if q = k then none else s.residentMeta.get q := by
  have := (removeEntry_frame (removeResident s k) k).2.1
  simp only [evictIdle]
  rw [this, removeResident]
  exact AMap.get_erase _ _ _

theorem foldl_evictIdle (l : List Key) : ∀ (s : State) (q : Key),
    (l.foldl evictIdle s).resident.get q = (if q ∈ l then none else s.resident.get q) ∧
    (l.foldl evictIdle s).residentMeta.get q = (if q ∈ l then none else s.residentMeta.get q) := by
  induction l with
  | nil => intro s q; simp
  | cons k r ih =>
    intro s q
    rw [List.foldl_cons, (ih _ q).1, (ih _ q).2, evictIdle_resident, evictIdle_meta]
    by_cases h1 : q ∈ r <;> by_cases h2 : q = k <;> simp [h1, h2]

theorem mem_idleKeys {s : State} (hn : AMap.Nodup s.residentMeta) (d : Nat) (k : Key) :
    k ∈ idleKeys s d ↔ ∃ t, s.residentMeta.get k = some t ∧ d < s.now - t := by
  unfold idleKeys
  rw [List.mem_map]
  constructor
  · rintro ⟨x, hx, rfl⟩
    obtain ⟨h1, h2⟩ := List.mem_filter.mp hx
    exact ⟨x.2, AMap.get_of_mem hn h1, by simpa using h2⟩
  · rintro ⟨t, h1, h2⟩
    exact ⟨(k, t), List.mem_filter.mpr ⟨AMap.mem_of_get h1, by simpa using h2⟩, rfl⟩

theorem afterIdle_get {cfg : Config} {s : State} (hn : AMap.Nodup s.residentMeta) (k : Key)
    [Decidable (Idle cfg s k)] :
    (afterIdle cfg s).resident.get k = (if Idle cfg s k then none else s.resident.get k) ∧
    (afterIdle cfg s).residentMeta.get k = (if Idle cfg s k then none else s.residentMeta.get k) := by
  unfold afterIdle
  split
  · rename_i d hd
    have h := foldl_evictIdle (idleKeys { s with lastSweep := s.now } d) { s with lastSweep := s.now } k
    have hiff : k ∈ idleKeys { s with lastSweep := s.now } d ↔ Idle cfg s k := by
      rw [mem_idleKeys (s := { s with lastSweep := s.now }) hn]
      constructor
      · rintro ⟨t, h1, h2⟩; exact ⟨d, t, hd, h1, h2⟩
      · rintro ⟨d', t, h1, h2, h3⟩
        rw [hd] at h1
        simp only [Option.some.injEq] at h1
        subst h1
        exact ⟨t, h2, h3⟩
    constructor
    · show ((idleKeys { s with lastSweep := s.now } d).foldl evictIdle { s with lastSweep := s.now }).resident.get k = _
      rw [h.1]
      by_cases hk : Idle cfg s k
      · rw [if_pos (hiff.mpr hk), if_pos hk]
      · rw [if_neg (fun h => hk (hiff.mp h)), if_neg hk]
    · show ((idleKeys { s with lastSweep := s.now } d).foldl evictIdle { s with lastSweep := s.now }).residentMeta.get k = _
      rw [h.2]
      by_cases hk : Idle cfg s k
      · rw [if_pos (hiff.mpr hk), if_pos hk]
      · rw [if_neg (fun h => hk (hiff.mp h)), if_neg hk]
  · rename_i hd
    have : ¬ Idle cfg s k := by
      rintro ⟨d, t, h1, _⟩; rw [hd] at h1; cases h1
    rw [if_neg this, if_neg this]
    exact ⟨rfl, rfl⟩

theorem insertByTime_sorted (p : Key × Nat) (l : List (Key × Nat)) (h : l.Pairwise fun a b => a.2 ≤ b.2) :
    (insertByTime p l).Pairwise fun a b => a.2 ≤ b.2 := by
  induction l with
  | nil => simp [insertByTime]
  | cons q r ih =>
    unfold insertByTime
    rw [List.pairwise_cons] at h
    split
    · rename_i hpq
      rw [List.pairwise_cons]
      refine ⟨?_, List.pairwise_cons.mpr h⟩
      intro b hb
      rcases List.mem_cons.mp hb with rfl | hb
      · exact hpq
      · exact Nat.le_trans hpq (h.1 b hb)
    · rename_i hpq
      rw [List.pairwise_cons]
      refine ⟨?_, ih h.2⟩
      intro b hb
      rcases (mem_insertByTime p b r).mp hb with rfl | hb
      · omega
      · exact h.1 b hb

theorem sortByTime_sorted (l : List (Key × Nat)) : (sortByTime l).Pairwise fun a b => a.2 ≤ b.2 := by
  induction l with
  | nil => simp [sortByTime]
  | cons p r ih => exact insertByTime_sorted p _ ih

theorem lruLoop_get (budget : Nat) (readings : Nat → Nat) (l : List (Key × Nat)) : ∀ (i : Nat) (s : State),
    ∃ n, n ≤ l.length ∧ (∀ j, j < n → budget < readings (i + j)) ∧
      (n < l.length → readings (i + n) ≤ budget) ∧
      ∀ k, (lruLoop budget readings i s l).resident.get k =
        if k ∈ (l.take n).map (·.1) then none else s.resident.get k := by
  induction l with
  | nil => intro i s; exact ⟨0, Nat.le_refl _, by simp, by simp, by simp [lruLoop]⟩
  | cons a r ih =>
    obtain ⟨k, t⟩ := a
    intro i s
    unfold lruLoop
    split
    · rename_i hr
      exact ⟨0, Nat.zero_le _, by simp, fun _ => hr, by simp⟩
    · rename_i hr
      obtain ⟨n, h1, h2, h3, h4⟩ := ih (i + 1) (evictLru s k)
      refine ⟨n + 1, by simpa using h1, ?_, ?_, ?_⟩
      · intro j hj
        cases j with
        | zero => simpa using hr
        | succ j => have := h2 j (by omega); rw [show i + (j + 1) = i + 1 + j by omega]; exact this
      · intro hn
        have := h3 (by simpa using hn)
        rw [show i + (n + 1) = i + 1 + n by omega]; exact this
      · intro q
        rw [h4, evictLru_resident]
        by_cases h5 : q ∈ (r.take n).map (·.1) <;> by_cases h6 : q = k <;> simp [h5, h6]

end Verif.Backend
