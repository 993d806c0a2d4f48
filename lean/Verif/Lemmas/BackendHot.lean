import Verif.Lemmas.BackendTrace
/-!
# Lemmas: miss counting and the limit on tracked contracts
-/

namespace Verif.Backend

/-- A cold entry's counter is the (saturated) number of misses since tracking began. -/
def HInv (s : State) : Prop :=
  ∀ k e, s.entries.get k = some e → e.phase = .cold → e.hotness = min (missCount k s.trace) U32_MAX

theorem hinv_shrink {s t : State} (h : HInv s) (hm : ∀ k, missCount k t.trace = missCount k s.trace)
    (he : ∀ k e, t.entries.get k = some e → e.phase = .cold → s.entries.get k = some e) : HInv t := by
  intro k e hk hc
  rw [hm]; exact h k e (he k e hk hc) hc

theorem hinv_micro {cfg : Config} {H : Hist} (c : Notifier) (s t : State) (hi : Inv cfg H s) (h : HInv s)
    (m : Micro cfg H c s t) : HInv t := by
  cases m with
  | misc => exact h
  | storeClear => exact h
  | refuse n => rw [release_eq]; exact h
  | load => exact h
  | abandon => exact h
  | start => exact h
  | close hcl => intro k e hk; simp [shutdown, AMap.get] at hk
  | clear => intro k e hk; simp [clearResident, AMap.get] at hk
  | track k code mode hr he =>
    simp only [ensureEntry, he]
    intro q e hq hc
    simp only [AMap.get_insert] at hq
    split at hq
    · rename_i hqk
      simp only [Option.some.injEq] at hq
      subst hq
      simp [missCount, hqk]
    · rename_i hqk
      have : missCount q (Act.track k :: s.trace) = missCount q s.trace := by
        simp [missCount, Ne.symm hqk]
      simp only [this]
      exact h q e hq hc
  | wait k e n mode he hp hn =>
    intro q e' hq hc
    simp only [AMap.get_update] at hq
    split at hq
    · rename_i hqk
      rw [hqk, he] at hq
      simp only [Option.map_some, Option.some.injEq] at hq
      subst hq
      simp only at hc
      rw [hp] at hc; cases hc
    · rename_i hqk
      have : missCount q (if mode = .observed then Act.miss k :: s.trace else s.trace) = missCount q s.trace := by
        split
        · simp [missCount, Ne.symm hqk]
        · rfl
      simp only [this]
      exact h q e' hq hc
  | heat k e he hp hr =>
    intro q e' hq hc
    simp only [AMap.get_update] at hq
    split at hq
    · rename_i hqk
      rw [hqk, he] at hq
      simp only [Option.map_some, Option.some.injEq] at hq
      subst hq
      have := h k e he hp
      simp only [missCount, hqk, if_true]
      omega
    · rename_i hqk
      have : missCount q (Act.miss k :: s.trace) = missCount q s.trace := by
        simp [missCount, Ne.symm hqk]
      simp only [this]
      exact h q e' hq hc
  | touch k e he hp =>
    intro q e' hq hc
    simp only [AMap.get_update] at hq
    split at hq
    · rename_i hqk
      rw [hqk, he] at hq
      simp only [Option.map_some, Option.some.injEq] at hq
      subst hq
      rw [hqk]
      exact h k e he hp
    · exact h q e' hq hc
  | dispatch kind k e n mode he hp =>
    intro q e' hq hc
    simp only [AMap.get_update] at hq
    split at hq
    · rename_i hqk
      rw [hqk, he] at hq
      simp only [Option.map_some, Option.some.injEq] at hq
      subst hq
      cases hc
    · exact h q e' hq hc
  | result j o hj hcl =>
    have key : ∀ q e, ((s.entries.update j.key fun e => { e with waiters := [] }).erase j.key).get q = some e →
        s.entries.get q = some e := by
      intro q e hq
      rw [AMap.get_erase, AMap.get_update] at hq
      split at hq
      · cases hq
      · exact hq
    rw [handleResult_eq]
    split
    · exact hinv_shrink h (fun _ => rfl) fun k e hk _ => key k e hk
    · obtain ⟨h1, _⟩ := publish_shape cfg (afterJob s j) j o
      refine hinv_shrink h (fun _ => rfl) fun k e hk _ => key k e ?_
      have hk' : (publish cfg (afterJob s j) j o).entries.get k = some e := hk
      rw [h1] at hk'; exact hk'
  | idle k =>
    refine hinv_shrink h (fun q => by rw [evictIdle_trace]; rfl) ?_
    intro q e hq _
    have hq' : (removeEntry (removeResident s k) k).entries.get q = some e := hq
    rw [removeEntry_entries] at hq'
    split at hq'
    · cases hq'
    · exact hq'
  | lru k =>
    refine hinv_shrink h (fun q => by rw [evictLru_trace]) ?_
    intro q e hq _
    have hq' : (removeEntry (removeResident s k) k).entries.get q = some e := hq
    rw [removeEntry_entries] at hq'
    split at hq'
    · cases hq'
    · exact hq'
  | cold idle =>
    refine hinv_shrink h (fun q => rfl) ?_
    intro q e hq _
    simp only [sweepCold] at hq
    rw [AMap.get_filter hi.entriesNodup, Option.filter_eq_some_iff] at hq
    exact hq.1

/-- A compilation started by misses: the threshold was reached. -/
def HotEnough (cfg : Config) (_ : Nat) (k : Key) (m : Mode) (older : List Act) : Prop :=
  m = .observed → cfg.hotThreshold ≤ missCount k older

theorem hotEnough_micro {cfg : Config} {H : Hist} (c : Notifier) (s t : State) (h : HInv s)
    (ha : AtDispatch (HotEnough cfg) s.trace) (m : Micro cfg H c s t) : AtDispatch (HotEnough cfg) t.trace := by
  rcases trace_micro m with heq | ⟨a, heq⟩
  · rw [heq]; exact ha
  · rw [heq]
    refine atDispatch_cons ha ?_
    intro i k mode hd
    subst hd
    cases m with
    | dispatch kind q e n md he hp hr hm hpa hh hcl hn =>
      simp only [List.cons.injEq, Act.dispatch.injEq, and_true] at heq
      obtain ⟨_, rfl, rfl⟩ := heq
      intro hmd
      have h1 := hh hmd
      have h2 := h q e he hp
      omega
    | misc => exact absurd heq (by simp)
    | storeClear => exact absurd heq (by simp)
    | refuse n => rw [release_eq] at heq; exact absurd heq (by simp)
    | load => exact absurd heq (by simp [insertResident])
    | track q code mode hr he =>
      simp [ensureEntry, he] at heq
    | wait q e n mode => cases mode <;> simp at heq
    | heat => simp at heq
    | touch => exact absurd heq (by simp)
    | clear => simp [clearResident] at heq
    | result j o hj => rw [handleResult_eq] at heq; split at heq <;> simp at heq
    | idle q => rw [evictIdle_trace] at heq; simp at heq
    | lru q => rw [evictLru_trace] at heq; exact absurd heq (by simp)
    | cold => exact absurd heq (by simp [sweepCold])
    | start => exact absurd heq (by simp)
    | close => exact absurd heq (by simp [shutdown, abandonAll])
    | abandon => exact absurd heq (by simp [abandonAll])

/-! ## The limit on tracked contracts -/

/-- Entries created by lookups. -/
def lookupEntries (s : State) : Nat := s.entries.countP fun p => p.2.byLookup

theorem countP_update (m : AMap Key Entry) (k : Key) (f : Entry → Entry)
    (hf : ∀ e, (f e).byLookup = e.byLookup) :
    (m.update k f).countP (fun p => p.2.byLookup) = m.countP fun p => p.2.byLookup := by
  unfold AMap.update
  rw [List.countP_map]
  congr 1
  funext p
  simp only [Function.comp]
  split
  · exact hf p.2
  · rfl

theorem countP_sub {m m' : AMap Key Entry} (h : m'.Sublist m) :
    m'.countP (fun p => p.2.byLookup) ≤ m.countP fun p => p.2.byLookup := h.countP_le

theorem removeEntry_sublist (s : State) (k : Key) : (removeEntry s k).entries.Sublist s.entries := by
  unfold removeEntry
  split
  · exact List.Sublist.refl _
  · exact List.filter_sublist

theorem cap_micro {cfg : Config} {H : Hist} (c : Notifier) (s t : State)
    (h : lookupEntries s ≤ cfg.maxPending * 10) (m : Micro cfg H c s t) :
    lookupEntries t ≤ cfg.maxPending * 10 := by
  have upd : ∀ (k : Key) (f : Entry → Entry), (∀ e, (f e).byLookup = e.byLookup) →
      (s.entries.update k f).countP (fun p => p.2.byLookup) ≤ cfg.maxPending * 10 := by
    intro k f hf
    rw [countP_update _ _ _ hf]; exact h
  cases m with
  | misc => exact h
  | storeClear => exact h
  | refuse n => rw [release_eq]; exact h
  | load => exact h
  | abandon => exact h
  | start => exact h
  | close => exact Nat.zero_le _
  | clear => exact Nat.zero_le _
  | track k code mode hr he hc hcl hm =>
    simp only [ensureEntry, he, lookupEntries, AMap.insert, List.countP_cons]
    have h1 : (s.entries.erase k).countP (fun p => p.2.byLookup) ≤ s.entries.countP fun p => p.2.byLookup :=
      countP_sub List.filter_sublist
    have h2 : s.entries.countP (fun p => p.2.byLookup) ≤ s.entries.length := List.countP_le_length
    have h3 : s.entries.countP (fun p => p.2.byLookup) ≤ cfg.maxPending * 10 := h
    cases mode with
    | observed =>
      have := hm rfl
      simp; omega
    | explicit => simp; omega
  | wait k e n mode => exact upd k (fun e => { e with lastObserved := s.now, waiters := e.waiters ++ [c] }) fun _ => rfl
  | heat k e => exact upd k (fun e => { e with lastObserved := s.now, hotness := min (e.hotness + 1) U32_MAX }) fun _ => rfl
  | touch k e => exact upd k (fun e => { e with lastObserved := s.now }) fun _ => rfl
  | dispatch kind k e n mode => exact upd k (fun e => { e with phase := .working }) fun _ => rfl
  | result j o hj hcl =>
    have key := Nat.le_trans (countP_sub (List.filter_sublist (p := fun p : Key × Entry => decide (p.1 ≠ j.key))))
      (upd j.key (fun e => { e with waiters := [] }) fun _ => rfl)
    rw [handleResult_eq]
    split
    · exact key
    · obtain ⟨h1, _⟩ := publish_shape cfg (afterJob s j) j o
      simp only [lookupEntries]
      rw [h1]; exact key
  | idle k => exact Nat.le_trans (countP_sub (removeEntry_sublist (removeResident s k) k)) h
  | lru k => exact Nat.le_trans (countP_sub (removeEntry_sublist (removeResident s k) k)) h
  | cold idle => exact Nat.le_trans (countP_sub List.filter_sublist) h

end Verif.Backend
