import Verif.Lemmas.BackendSteps
/-!
# Lemmas: blocked callers
-/

namespace Verif.Backend

theorem count_filterMap_id (ns : List Notifier) (c : Nat) : (ns.filterMap id).count c = ns.count (some c) := by
  induction ns with
  | nil => rfl
  | cons n r ih =>
    cases n with
    | none => simp [ih]
    | some d => simp [List.count_cons, ih]

theorem count_toList (n : Notifier) (c : Nat) : n.toList.count c = [n].count (some c) := by
  cases n with
  | none => rfl
  | some d => simp [List.count_cons]

/-- How often caller `c` is blocked on a map of entries. -/
def inEntries (m : AMap Key Entry) (c : Nat) : Nat := (m.flatMap (·.2.waiters)).count (some c)

/-- How often caller `c` owns a job. -/
def inJobs (l : List Job) (c : Nat) : Nat := (l.map (·.notifier)).count (some c)

theorem inEntries_cons (k : Key) (e : Entry) (r : AMap Key Entry) (c : Nat) :
    inEntries ((k, e) :: r) c = e.waiters.count (some c) + inEntries r c := by
  simp [inEntries, List.flatMap_cons, List.count_append]

theorem inEntries_update {m : AMap Key Entry} (hn : AMap.Nodup m) {k : Key} {e : Entry} (f : Entry → Entry)
    (he : m.get k = some e) (c : Nat) :
    inEntries (m.update k f) c + e.waiters.count (some c) = inEntries m c + (f e).waiters.count (some c) := by
  induction m with
  | nil => cases he
  | cons a r ih =>
    obtain ⟨q, e'⟩ := a
    have hn' : q ∉ AMap.keys r ∧ AMap.Nodup r := List.nodup_cons.mp hn
    rw [AMap.get_cons] at he
    by_cases hq : k = q
    · subst hq
      simp only [if_true, Option.some.injEq] at he
      subst he
      have hr : AMap.update r k f = r := by
        unfold AMap.update
        conv => rhs; rw [← List.map_id r]
        apply List.map_congr_left
        intro p hp
        rw [if_neg]
        · rfl
        · intro hpk; exact hn'.1 (List.mem_map.mpr ⟨p, hp, hpk⟩)
      have : AMap.update ((k, e') :: r) k f = (k, f e') :: AMap.update r k f := by simp [AMap.update]
      rw [this, hr, inEntries_cons, inEntries_cons]; omega
    · rw [if_neg hq] at he
      have : AMap.update ((q, e') :: r) k f = (q, e') :: AMap.update r k f := by
        simp [AMap.update, Ne.symm hq]
      rw [this, inEntries_cons, inEntries_cons]
      have := ih hn'.2 he
      omega

theorem inEntries_erase {m : AMap Key Entry} (hn : AMap.Nodup m) (k : Key) (c : Nat) :
    inEntries (m.erase k) c + (match m.get k with | some e => e.waiters.count (some c) | none => 0) =
      inEntries m c := by
  induction m with
  | nil => rfl
  | cons a r ih =>
    obtain ⟨q, e'⟩ := a
    have hn' : q ∉ AMap.keys r ∧ AMap.Nodup r := List.nodup_cons.mp hn
    rw [AMap.get_cons]
    by_cases hq : k = q
    · subst hq
      have hr : AMap.erase r k = r := by
        apply List.filter_eq_self.mpr
        intro p hp
        simp only [decide_eq_true_eq]
        intro hpk; exact hn'.1 (List.mem_map.mpr ⟨p, hp, hpk⟩)
      have : AMap.erase ((k, e') :: r) k = AMap.erase r k := by simp [AMap.erase]
      rw [this, hr, inEntries_cons]
      simp only [if_true]; omega
    · have : AMap.erase ((q, e') :: r) k = (q, e') :: AMap.erase r k := by
        simp [AMap.erase, Ne.symm hq]
      rw [this, inEntries_cons, inEntries_cons, if_neg hq]
      have := ih hn'.2
      omega

theorem inEntries_filter (m : AMap Key Entry) (p : Key × Entry → Bool)
    (h : ∀ x ∈ m, p x = false → x.2.waiters = []) (c : Nat) : inEntries (m.filter p) c = inEntries m c := by
  induction m with
  | nil => rfl
  | cons a r ih =>
    have ih := ih fun x hx => h x (List.mem_cons_of_mem _ hx)
    obtain ⟨q, e⟩ := a
    by_cases hp : p (q, e) = true
    · rw [List.filter_cons_of_pos hp, inEntries_cons, inEntries_cons, ih]
    · rw [List.filter_cons_of_neg hp, inEntries_cons, ih]
      have := h (q, e) List.mem_cons_self (by simpa using hp)
      simp only at this
      rw [this]; simp

theorem inJobs_filter {l : List Job} (hn : (l.map (·.id)).Nodup) {j : Job} (hj : j ∈ l) (c : Nat) :
    inJobs (l.filter (·.id ≠ j.id)) c + [j.notifier].count (some c) = inJobs l c := by
  induction l with
  | nil => simp at hj
  | cons a r ih =>
    simp only [List.map_cons, List.nodup_cons] at hn
    rcases List.mem_cons.mp hj with rfl | hj'
    · have : r.filter (fun x => x.id ≠ j.id) = r := by
        apply List.filter_eq_self.mpr
        intro x hx
        simp only [decide_eq_true_eq]
        intro he
        exact hn.1 (List.mem_map.mpr ⟨x, hx, he⟩)
      rw [List.filter_cons_of_neg (by simp), this]
      simp only [inJobs, List.map_cons, List.count_cons, List.count_nil]
      omega
    · have hne : a.id ≠ j.id := fun he => hn.1 (List.mem_map.mpr ⟨j, hj', he.symm⟩)
      rw [List.filter_cons_of_pos (by simpa using hne)]
      have := ih hn.2 hj'
      simp only [inJobs, List.map_cons, List.count_cons] at this ⊢
      omega

/-- How often caller `c` is blocked. -/
def heldCount (s : State) (c : Nat) : Nat :=
  if s.closed then 0 else inEntries s.entries c + inJobs s.jobs c

/-- Callers that were answered, given up or are blocked. -/
def total (s : State) (c : Nat) : Nat := s.released.count c + s.abandoned.count c + heldCount s c

/-- After the end no entries are left. -/
def CInv (s : State) : Prop := s.closed = true → s.entries = []

theorem removeEntry_total {s : State} (hn : AMap.Nodup s.entries) (hc : CInv s) (k : Key) (c : Nat) :
    total (removeEntry s k) c = total s c := by
  unfold removeEntry
  split
  · rfl
  · rename_i e he
    cases hcl : s.closed with
    | true =>
      rw [hc hcl] at he; cases he
    | false =>
      have := inEntries_erase hn k c
      rw [he] at this
      simp only at this
      simp only [total, heldCount, abandonAll, hcl, List.count_append, count_filterMap_id]
      simp
      omega

theorem total_congr {s t : State} {c : Nat} (h1 : t.released = s.released) (h2 : t.abandoned = s.abandoned)
    (h3 : t.closed = s.closed) (h4 : inEntries t.entries c = inEntries s.entries c)
    (h5 : inJobs t.jobs c = inJobs s.jobs c) : total t c = total s c := by
  simp only [total, heldCount, h1, h2, h3, h4, h5]

theorem cinv_micro {cfg : Config} {H : Hist} (n : Notifier) (s t : State) (hi : Inv cfg H s) (h : CInv s)
    (m : Micro cfg H n s t) : CInv t := by
  have upd : ∀ (k : Key) (f : Entry → Entry), s.closed = true → s.entries.update k f = [] := by
    intro k f hc; rw [h hc]; rfl
  cases m with
  | misc => exact h
  | storeClear => exact h
  | refuse => rw [release_eq]; exact h
  | load => exact h
  | abandon => exact h
  | start => exact h
  | close => intro _; rfl
  | clear => intro _; rfl
  | track k code mode hr he hc hcl =>
    simp only [ensureEntry, he]
    intro hc; simp only at hc; rw [hcl] at hc; cases hc
  | wait k e n mode => intro hc; simp only at hc ⊢; exact upd k _ hc
  | heat k e => intro hc; simp only at hc ⊢; exact upd k _ hc
  | touch k e => intro hc; simp only at hc ⊢; exact upd k _ hc
  | dispatch kind k e n mode => intro hc; simp only at hc ⊢; exact upd k _ hc
  | result j o hj hcl =>
    rw [handleResult_eq]
    split
    · intro hc; have hc' : s.closed = true := hc; rw [hcl] at hc'; cases hc'
    · obtain ⟨_, _, _, _, _, _, _, _, _, h10, _⟩ := publish_shape cfg (afterJob s j) j o
      intro hc
      have hc' : (publish cfg (afterJob s j) j o).closed = true := hc
      rw [h10] at hc'
      have hc' : s.closed = true := hc'
      rw [hcl] at hc'; cases hc'
  | idle k =>
    intro hc
    have hc' : (removeEntry (removeResident s k) k).closed = true := hc
    rw [(removeEntry_frame (removeResident s k) k).2.2.2.2.2.2.2.2.2.2.2.2] at hc'
    have := h hc'
    show (removeEntry (removeResident s k) k).entries = []
    simp [removeEntry, removeResident, this, AMap.get]
  | lru k =>
    intro hc
    have hc' : (removeEntry (removeResident s k) k).closed = true := hc
    rw [(removeEntry_frame (removeResident s k) k).2.2.2.2.2.2.2.2.2.2.2.2] at hc'
    have := h hc'
    show (removeEntry (removeResident s k) k).entries = []
    simp [removeEntry, removeResident, this, AMap.get]
  | cold idle =>
    intro hc
    have := h hc
    simp only [sweepCold, this]; rfl

/-- A small step accounts for exactly the caller it takes in. -/
theorem total_micro {cfg : Config} {H : Hist} (n : Notifier) (s t : State) (hi : Inv cfg H s) (hc : CInv s)
    (m : Micro cfg H n s t) (c : Nat) : total t c = n.toList.count c + total s c := by
  have zero : total t c = total s c → total t c = (none : Notifier).toList.count c + total s c := by
    intro h; rw [h]; simp
  cases m with
  | misc => exact zero rfl
  | storeClear => exact zero rfl
  | refuse =>
    rw [release_eq]
    simp only [total, heldCount, List.count_append]; omega
  | load => exact zero rfl
  | abandon =>
    rw [count_toList, ← count_filterMap_id]
    show s.released.count c + ([n].filterMap id ++ s.abandoned).count c + heldCount s c =
      ([n].filterMap id).count c + (s.released.count c + s.abandoned.count c + heldCount s c)
    rw [List.count_append]; omega
  | start i =>
    refine zero (total_congr rfl rfl rfl rfl ?_)
    simp only [inJobs, List.map_map]
    congr 1
    apply List.map_congr_left
    intro j _
    simp only [Function.comp]
    split <;> rfl
  | close hcl =>
    refine zero ?_
    simp only [total, heldCount, shutdown, abandonAll, hcl, inEntries, inJobs, List.count_append,
      count_filterMap_id]
    simp
    omega
  | clear =>
    refine zero ?_
    simp only [clearResident, releaseAll_eq, total, heldCount, List.count_append, List.count_reverse,
      count_filterMap_id]
    cases hcl : s.closed with
    | true => rw [hc hcl]; simp
    | false =>
      simp [inEntries]
      omega
  | track k code mode hr he hc' hcl =>
    refine zero ?_
    simp only [ensureEntry, he]
    refine total_congr rfl rfl rfl ?_ rfl
    simp only [AMap.insert]
    have := inEntries_erase hi.entriesNodup k c
    rw [he] at this
    simp only [Nat.add_zero] at this
    rw [inEntries_cons]
    simp only [List.count_nil]; omega
  | wait k e n mode he hp hn =>
    cases hcl : s.closed with
    | true => rw [hc hcl] at he; cases he
    | false =>
      have := inEntries_update hi.entriesNodup
        (fun e => { e with lastObserved := s.now, waiters := e.waiters ++ [n] }) he c
      simp only [List.count_append] at this
      simp only [total, heldCount, hcl, count_toList]
      simp only [if_false, Bool.false_eq_true]
      omega
  | heat k e he hp hr =>
    refine zero (total_congr rfl rfl rfl ?_ rfl)
    have := inEntries_update hi.entriesNodup
      (fun e => { e with lastObserved := s.now, hotness := min (e.hotness + 1) U32_MAX }) he c
    simp only at this
    simp only; omega
  | touch k e he hp =>
    refine zero (total_congr rfl rfl rfl ?_ rfl)
    have := inEntries_update hi.entriesNodup (fun e => { e with lastObserved := s.now }) he c
    simp only at this
    simp only; omega
  | dispatch kind k e n mode he hp hr hm ha hh hcl hn =>
    have := inEntries_update hi.entriesNodup (fun e => { e with phase := .working }) he c
    simp only at this
    simp only [total, heldCount, hcl, count_toList]
    simp only [if_false, Bool.false_eq_true, inJobs, List.map_append, List.count_append, List.map_cons, List.map_nil]
    omega
  | result j o hj hcl =>
    refine zero ?_
    have hjb := inJobs_filter hi.idsNodup hj c
    have hen : inEntries ((s.entries.update j.key fun e => { e with waiters := [] }).erase j.key) c +
        (takeWaiters s j.key).count (some c) = inEntries s.entries c := by
      have h1 := inEntries_erase (AMap.nodup_update hi.entriesNodup j.key fun e => { e with waiters := [] }) j.key c
      rw [AMap.get_update, if_pos rfl] at h1
      unfold takeWaiters
      cases he : s.entries.get j.key with
      | none =>
        rw [he] at h1
        simp only [Option.map_none, Nat.add_zero] at h1
        have : s.entries.update j.key (fun e => { e with waiters := [] }) = s.entries := by
          unfold AMap.update
          conv => rhs; rw [← List.map_id s.entries]
          apply List.map_congr_left
          intro p hp
          rw [if_neg]
          · rfl
          · intro hpk
            have := AMap.get_of_mem hi.entriesNodup hp
            rw [hpk, he] at this; cases this
        rw [h1, this]; simp
      | some e =>
        rw [he] at h1
        have h2 := inEntries_update hi.entriesNodup (fun e => { e with waiters := [] }) he c
        simp only [Option.map_some, List.count_nil, Nat.add_zero] at h1 h2
        rw [h1]; exact h2
    have hrel : (((j.notifier :: takeWaiters s j.key).filterMap id).reverse).count c =
        [j.notifier].count (some c) + (takeWaiters s j.key).count (some c) := by
      rw [List.count_reverse, count_filterMap_id, ← List.count_append]; rfl
    rw [handleResult_eq]
    split
    · simp only [total, heldCount, afterJob, hcl, if_false, Bool.false_eq_true, List.count_append, hrel]
      omega
    · obtain ⟨h1, h2, _, _, _, h6, h7, _, _, h10, _⟩ := publish_shape cfg (afterJob s j) j o
      simp only [total, heldCount]
      rw [h1, h2, h7, h10]
      simp only [afterJob, hcl, if_false, Bool.false_eq_true, List.count_append, hrel]
      omega
  | idle k =>
    refine zero ?_
    show total (removeEntry (removeResident s k) k) c = _
    rw [removeEntry_total (s := removeResident s k) hi.entriesNodup hc]; rfl
  | lru k =>
    refine zero ?_
    show total (removeEntry (removeResident s k) k) c = _
    rw [removeEntry_total (s := removeResident s k) hi.entriesNodup hc]; rfl
  | cold idle =>
    refine zero (total_congr rfl rfl rfl ?_ rfl)
    refine inEntries_filter _ _ ?_ c
    intro x hx hp
    have hget := AMap.get_of_mem hi.entriesNodup (k := x.1) (v := x.2) hx
    refine hi.coldWaiters x.1 x.2 hget ?_
    simp only [Bool.not_eq_false', Bool.and_eq_true, beq_iff_eq] at hp
    exact hp.1.1

theorem steps_total {cfg : Config} {H : Hist} {l : List Nat} {s t : State} (hs : Steps cfg H s l t)
    (hi : Inv cfg H s) (hc : CInv s) (c : Nat) :
    Inv cfg H t ∧ CInv t ∧ total t c = l.count c + total s c := by
  induction hs with
  | refl => exact ⟨hi, hc, by simp⟩
  | tail _ m ih =>
    refine ⟨inv_micro ih.1 m, cinv_micro _ _ _ ih.1 ih.2.1 m, ?_⟩
    rw [total_micro _ _ _ ih.1 ih.2.1 m c, ih.2.2, List.count_append]; omega

/-! ## Which key a caller waits for -/

/-- Blocked callers asked for the key they are blocked on. -/
def WInv (H : Hist) (s : State) : Prop := ∀ c k, Waiting s c k → H.ask k c

theorem winv_update {H : Hist} {s t : State} (h : WInv H s) (k : Key) (f : Entry → Entry)
    (hf : ∀ e c, s.entries.get k = some e → some c ∈ (f e).waiters → some c ∈ e.waiters ∨ H.ask k c)
    (he : t.entries = s.entries.update k f) (hj : t.jobs = s.jobs) : WInv H t := by
  intro c q hw
  rcases hw with ⟨j, hj', h1, h2⟩ | ⟨e, hq, hc⟩
  · exact h c q (.inl ⟨j, by rw [← hj]; exact hj', h1, h2⟩)
  · rw [he, AMap.get_update] at hq
    split at hq
    · rename_i hqk
      subst hqk
      cases hg : s.entries.get q with
      | none => rw [hg] at hq; cases hq
      | some e' =>
        rw [hg] at hq
        simp only [Option.map_some, Option.some.injEq] at hq
        subst hq
        rcases hf e' c hg hc with h1 | h1
        · exact h c q (.inr ⟨e', hg, h1⟩)
        · exact h1
    · exact h c q (.inr ⟨e, hq, hc⟩)

theorem winv_shrink {H : Hist} {s t : State} (h : WInv H s) (hj : ∀ j ∈ t.jobs, j ∈ s.jobs)
    (he : ∀ q e, t.entries.get q = some e → s.entries.get q = some e) : WInv H t := by
  intro c q hw
  rcases hw with ⟨j, hj', h1, h2⟩ | ⟨e, hq, hc⟩
  · exact h c q (.inl ⟨j, hj j hj', h1, h2⟩)
  · exact h c q (.inr ⟨e, he q e hq, hc⟩)

theorem winv_micro {cfg : Config} {H : Hist} (n : Notifier) (s t : State) (hi : Inv cfg H s) (h : WInv H s)
    (m : Micro cfg H n s t) : WInv H t := by
  have keep : ∀ {t : State}, t.jobs = s.jobs → t.entries = s.entries → WInv H t := by
    intro t h1 h2
    exact winv_shrink h (fun j hj => by rw [← h1]; exact hj) (fun q e hq => by rw [← h2]; exact hq)
  have evict : ∀ k {t : State}, t.jobs = (removeEntry (removeResident s k) k).jobs →
      t.entries = (removeEntry (removeResident s k) k).entries → WInv H t := by
    intro k t h1 h2
    refine winv_shrink h ?_ ?_
    · intro j hj; rw [h1, (removeEntry_frame _ _).2.2.1] at hj; exact hj
    · intro q e hq
      rw [h2, removeEntry_entries] at hq
      split at hq
      · cases hq
      · exact hq
  cases m with
  | misc => exact keep rfl rfl
  | storeClear => exact keep rfl rfl
  | refuse => rw [release_eq]; exact keep rfl rfl
  | load => exact keep rfl rfl
  | abandon => exact keep rfl rfl
  | start i =>
    intro c q hw
    rcases hw with ⟨j, hj', h1, h2⟩ | hw
    · obtain ⟨y, hy, rfl⟩ := List.mem_map.mp hj'
      refine h c q (.inl ⟨y, hy, ?_, ?_⟩)
      · split at h1 <;> exact h1
      · split at h2 <;> exact h2
    · exact h c q (.inr hw)
  | close => exact winv_shrink h (fun _ hj => hj) (fun q e hq => by simp [shutdown, AMap.get] at hq)
  | clear =>
    simp only [clearResident, releaseAll_eq]
    exact winv_shrink h (fun _ hj => hj) (fun q e hq => by simp [AMap.get] at hq)
  | track k code mode hr he hc' hcl =>
    simp only [ensureEntry, he]
    intro c q hw
    rcases hw with hw | ⟨e, hq, hc⟩
    · exact h c q (.inl hw)
    · simp only [AMap.get_insert] at hq
      split at hq
      · simp only [Option.some.injEq] at hq
        subst hq; cases hc
      · exact h c q (.inr ⟨e, hq, hc⟩)
  | wait k e n mode he hp hn =>
    refine winv_update h k (fun e => { e with lastObserved := s.now, waiters := e.waiters ++ [n] }) ?_ rfl rfl
    intro e' c _ hc
    rcases List.mem_append.mp hc with hc | hc
    · exact .inl hc
    · rw [List.mem_singleton] at hc; exact .inr (hn c hc.symm)
  | heat k e he hp hr =>
    exact winv_update h k (fun e => { e with lastObserved := s.now, hotness := min (e.hotness + 1) U32_MAX })
      (fun _ _ _ hc => .inl hc) rfl rfl
  | touch k e he hp =>
    exact winv_update h k (fun e => { e with lastObserved := s.now }) (fun _ _ _ hc => .inl hc) rfl rfl
  | dispatch kind k e n mode he hp hr hm ha hh hcl hn =>
    have h1 := winv_update (t := { s with entries := s.entries.update k fun e => { e with phase := .working } })
      h k (fun e => { e with phase := .working }) (fun _ _ _ hc => .inl hc) rfl rfl
    intro c q hw
    rcases hw with ⟨j, hj, hk, hn'⟩ | hw
    · rcases List.mem_append.mp hj with hj | hj
      · exact h c q (.inl ⟨j, hj, hk, hn'⟩)
      · rw [List.mem_singleton] at hj; subst hj
        simp only at hk hn'
        rw [← hk]; exact hn c hn'
    · exact h1 c q (.inr hw)
  | result j o hj hcl =>
    have key : ∀ q e, ((s.entries.update j.key fun e => { e with waiters := [] }).erase j.key).get q = some e →
        s.entries.get q = some e := by
      intro q e hq
      rw [AMap.get_erase, AMap.get_update] at hq
      split at hq
      · cases hq
      · exact hq
    have hsub : ∀ x ∈ s.jobs.filter (·.id ≠ j.id), x ∈ s.jobs := fun x hx => (List.mem_filter.mp hx).1
    rw [handleResult_eq]
    split
    · exact winv_shrink h hsub key
    · obtain ⟨h1, h2, _⟩ := publish_shape cfg (afterJob s j) j o
      refine winv_shrink h ?_ ?_
      · show ∀ x ∈ (publish cfg (afterJob s j) j o).jobs, _
        rw [h2]; exact hsub
      · show ∀ q e, (publish cfg (afterJob s j) j o).entries.get q = some e → _
        rw [h1]; exact key
  | idle k => exact evict k rfl rfl
  | lru k => exact evict k rfl rfl
  | cold idle =>
    refine winv_shrink h (fun _ hj => hj) ?_
    intro q e hq
    simp only [sweepCold] at hq
    rw [AMap.get_filter hi.entriesNodup, Option.filter_eq_some_iff] at hq
    exact hq.1

end Verif.Backend
