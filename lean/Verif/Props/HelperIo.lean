import Verif.Lemmas.HelperIoHistory
/-!
# Answers of the out-of-process helper (C36)

All statements are about `run init evs` for an arbitrary list of events, i.e. every interleaving of
any number of callers, the reader, and an arbitrary helper.
-/

namespace Verif.HelperIo



/-- A result that reaches a caller is a job result that the helper sent under this caller's id after
the caller had registered, and the caller is a job (never a pause request). -/
theorem C36_own_answer (evs : List Ev) (id : Nat) (r : Result)
    (h : Spec.Returned (run init evs) id (.received (.result r))) :
    Spec.ReadAfterSubmit evs id r ∧ ∃ p, (run init evs).caller id = some (.job, p) :=
  history evs id r (.inr h)

/-- Each caller returns at most once: the first answer is final whatever happens afterwards. -/
theorem C36_once (evs more : List Ev) (id : Nat) (a b : Answer)
    (h1 : Spec.Returned (run init evs) id a) (h2 : Spec.Returned (run init (evs ++ more)) id b) :
    a = b := by
  obtain ⟨k, h1⟩ := h1
  obtain ⟨k', h2⟩ := h2
  have hi := inv_run inv_init evs
  have : (run init (evs ++ more)).caller id = some (k, .done a) := by
    rw [run_append]
    revert h1 hi
    clear h2
    generalize run init evs = s
    induction more generalizing s with
    | nil => intro h1 _; exact h1
    | cons e r ih => intro h1 hi; exact ih _ (done_step hi h1 e) (inv_step hi e)
  rw [this] at h2
  cases h2; rfl

/-- Different callers have different ids: an id is given out once. -/
theorem C36_ids_fresh (evs : List Ev) (k : Kind) :
    (run init evs).caller (run init evs).nextId = none ∧
    (run init (evs ++ [.submit k])).caller (run init evs).nextId = some (k, .registered) := by
  refine ⟨((inv_run inv_init evs).fresh _ (Nat.le_refl _)).1, ?_⟩
  rw [run_append]
  exact upd_same _ _ _

/-- Once the helper's output has ended, every request registered before that is already answered, or
its caller returns by its own next actions (finish writing, take the message, drop the expired
entry), whatever happened in between: no further response is needed. -/
theorem C36_crash (evs more : List Ev) (id : Nat) (halive : (run init evs).readerAlive = true)
    (hid : id < (run init evs).nextId) :
    ∃ own, (∀ e ∈ own, Spec.Own id e) ∧ own.length ≤ 2 ∧
      ∃ a, Spec.Returned (run init (evs ++ .readFail :: more ++ own)) id a := by
  -- after the failure no table holds this id again
  have hgone : ∀ (more : List Ev) (k : Kind), id ∉ (run init (evs ++ .readFail :: more)).pending k ∧
      id < (run init (evs ++ .readFail :: more)).nextId := by
    intro more
    induction more using Verif.snocInd with
    | nil =>
      intro k
      rw [run_append]
      show id ∉ (step (run init evs) .readFail).pending k ∧ id < (step (run init evs) .readFail).nextId
      simp only [step, halive, if_true]
      exact ⟨by simp, hid⟩
    | append_singleton l e ih =>
      intro k
      have hs : run init (evs ++ .readFail :: (l ++ [e])) = step (run init (evs ++ .readFail :: l)) e := by
        rw [← List.cons_append, ← List.append_assoc, run_append]; rfl
      rw [hs]
      have hi := inv_run inv_init (evs ++ .readFail :: l)
      revert ih hi
      generalize run init (evs ++ .readFail :: l) = s
      intro ih hi
      have h1 := (ih k).1
      have h2 := (ih k).2
      have hfor : ∀ k' i, id ∉ (forget s k' i).pending k := by
        intro k' i
        simp only [forget]
        split
        · rename_i hk; subst hk; intro hm; exact h1 (List.mem_filter.mp hm).1
        · exact h1
      cases e with
      | submit k' =>
        refine ⟨?_, Nat.lt_succ_of_lt h2⟩
        simp only [step]
        split
        · rename_i hk; subst hk
          intro hm
          rcases List.mem_cons.mp hm with h3 | h3
          · omega
          · exact h1 h3
        · exact h1
      | wrote i => simp only [step]; split <;> exact ⟨h1, h2⟩
      | writeFail i => simp only [step]; split <;> first | exact ⟨h1, h2⟩ | exact ⟨hfor _ _, h2⟩
      | read m =>
        simp only [step]; split
        · cases m <;> simp only [deliver] <;> split <;> first | exact ⟨h1, h2⟩ | exact ⟨hfor _ _, h2⟩
        · exact ⟨h1, h2⟩
      | readFail =>
        simp only [step]; split
        · exact ⟨by simp, h2⟩
        · exact ⟨h1, h2⟩
      | recv i => simp only [step]; split <;> exact ⟨h1, h2⟩
      | timeout i p =>
        simp only [step]; split
        · split <;> exact ⟨h1, h2⟩
        · exact ⟨h1, h2⟩
        · exact ⟨h1, h2⟩
      | expire i => simp only [step]; split <;> first | exact ⟨h1, h2⟩ | exact ⟨hfor _ _, h2⟩
      | disconnect i => rw [disconnect_noop hi]; exact ⟨h1, h2⟩
  have hi := inv_run inv_init (evs ++ .readFail :: more)
  have hg := hgone more
  simp only [run_append _ (evs ++ .readFail :: more)]
  revert hi hg
  generalize run init (evs ++ .readFail :: more) = s
  intro hi hg
  obtain ⟨k, p, hc⟩ := hi.known id (hg .job).2
  have hmsg : Needs p → ∃ q, s.chan id = some q := by
    intro hn
    rcases hi.need id k p hc hn with h1 | h1
    · exact absurd h1 (hg k).1
    · exact Option.isSome_iff_exists.mp h1
  cases p with
  | registered =>
    obtain ⟨q, hq⟩ := hmsg trivial
    refine ⟨[.wrote id, .recv id], by simp [Spec.Own], by simp, .received q, k, ?_⟩
    simp [run, step, hc, upd_same, hq]
  | waiting =>
    obtain ⟨q, hq⟩ := hmsg trivial
    refine ⟨[.recv id], by simp [Spec.Own], by simp, .received q, k, ?_⟩
    simp [run, step, hc, upd_same, hq]
  | expiring =>
    refine ⟨[.expire id], by simp [Spec.Own], by simp, .timedOut, k, ?_⟩
    simp [run, step, hc, upd_same]
  | done a => exact ⟨[], by simp, by simp, a, k, hc⟩

/-- The reader never blocks on a full channel, and no caller ever sees its channel closed without a
message. -/
theorem C36_no_stuck (evs : List Ev) (id : Nat) :
    (run init evs).readerStuck = false ∧ ¬ Spec.Returned (run init evs) id .disconnected := by
  refine ⟨(inv_run inv_init evs).stuck, ?_⟩
  induction evs using Verif.snocInd with
  | nil => rintro ⟨k, h⟩; simp [run, init] at h
  | append_singleton l e ih =>
    have hi := inv_run inv_init l
    rintro ⟨k, h⟩
    rw [run_append] at h
    have h' : (step (run init l) e).caller id = some (k, .done .disconnected) := h
    have key : ∀ (i : Nat) (x : Kind × Phase), (x.2 ≠ .done .disconnected) →
        upd (run init l).caller i (some x) id = some (k, .done .disconnected) → False := by
      intro i x hx hu
      by_cases hq : id = i
      · subst hq
        rw [upd_same, Option.some.injEq] at hu
        exact hx (by rw [hu])
      · rw [upd_ne _ _ hq] at hu; exact ih ⟨k, hu⟩
    cases e with
    | submit k' => exact key _ _ (by simp) h'
    | wrote i => simp only [step] at h'; split at h' <;> first | exact ih ⟨k, h'⟩ | exact key _ _ (by simp) h'
    | writeFail i => simp only [step] at h'; split at h' <;> first | exact ih ⟨k, h'⟩ | exact key _ _ (by simp) h'
    | read m =>
      simp only [step] at h'; split at h'
      · cases m <;> simp only [deliver] at h' <;> split at h' <;> exact ih ⟨k, h'⟩
      · exact ih ⟨k, h'⟩
    | readFail => simp only [step] at h'; split at h' <;> exact ih ⟨k, h'⟩
    | recv i => simp only [step] at h'; split at h' <;> first | exact ih ⟨k, h'⟩ | exact key _ _ (by simp) h'
    | timeout i p =>
      simp only [step] at h'; split at h'
      · split at h'
        · exact ih ⟨k, h'⟩
        · exact key _ _ (by simp) h'
      · exact key _ _ (by simp) h'
      · exact ih ⟨k, h'⟩
    | expire i => simp only [step] at h'; split at h' <;> first | exact ih ⟨k, h'⟩ | exact key _ _ (by simp) h'
    | disconnect i => rw [disconnect_noop hi] at h'; exact ih ⟨k, h'⟩

/-- A job gives up waiting only because a wait ran out while the backend was not paused: time spent
paused never fails a job. -/
theorem C36_timeout_unpaused (evs : List Ev) (id : Nat)
    (h : (run init evs).caller id = some (.job, .done .timedOut)) : Ev.timeout id false ∈ evs := by
  have key : ∀ evs : List Ev, ((run init evs).caller id = some (.job, .done .timedOut) ∨
      (run init evs).caller id = some (.job, .expiring)) → Ev.timeout id false ∈ evs := by
    intro evs
    induction evs using Verif.snocInd with
    | nil => simp [run, init]
    | append_singleton l e ih =>
      have hi := inv_run inv_init l
      intro h'
      rw [run_append] at h'
      have h' : (step (run init l) e).caller id = some (.job, .done .timedOut) ∨
        (step (run init l) e).caller id = some (.job, .expiring) := h'
      rw [List.mem_append]
      have key : ∀ (i : Nat) (x : Kind × Phase), x.2 ≠ .done .timedOut → x.2 ≠ .expiring →
          (upd (run init l).caller i (some x) id = some (.job, .done .timedOut) ∨
            upd (run init l).caller i (some x) id = some (.job, .expiring)) →
          Ev.timeout id false ∈ l := by
        intro i x hx hx' hu
        by_cases hq : id = i
        · subst hq
          rw [upd_same, Option.some.injEq, Option.some.injEq] at hu
          rcases hu with hu | hu
          · exact absurd (by rw [hu]) hx
          · exact absurd (by rw [hu]) hx'
        · rw [upd_ne _ _ hq] at hu; exact ih hu
      cases e with
      | submit k' => exact .inl (key _ _ (by simp) (by simp) h')
      | wrote i => simp only [step] at h'; split at h' <;> first | exact .inl (ih h') | exact .inl (key _ _ (by simp) (by simp) h')
      | writeFail i => simp only [step] at h'; split at h' <;> first | exact .inl (ih h') | exact .inl (key _ _ (by simp) (by simp) h')
      | read m =>
        simp only [step] at h'; split at h'
        · cases m <;> simp only [deliver] at h' <;> split at h' <;> exact .inl (ih h')
        · exact .inl (ih h')
      | readFail => simp only [step] at h'; split at h' <;> exact .inl (ih h')
      | recv i => simp only [step] at h'; split at h' <;> first | exact .inl (ih h') | exact .inl (key _ _ (by simp) (by simp) h')
      | timeout i p =>
        simp only [step] at h'; split at h'
        · split at h'
          · exact .inl (ih h')
          · rename_i hp
            by_cases hq : id = i
            · subst hq; refine .inr ?_; cases p <;> simp_all
            · simp only [upd_ne _ _ hq] at h'; exact .inl (ih h')
        · by_cases hq : id = i
          · subst hq; simp [upd_same] at h'
          · simp only [upd_ne _ _ hq] at h'; exact .inl (ih h')
        · exact .inl (ih h')
      | expire i =>
        simp only [step] at h'; split at h'
        · rename_i k hk
          by_cases hq : id = i
          · subst hq
            simp only [upd_same, Option.some.injEq, Prod.mk.injEq, reduceCtorEq, and_false,
              or_false, and_true] at h'
            subst h'
            exact .inl (ih (.inr hk))
          · simp only [upd_ne _ _ hq] at h'; exact .inl (ih h')
        · exact .inl (ih h')
      | disconnect i => rw [disconnect_noop hi] at h'; exact .inl (ih h')
  exact key evs (.inl h)

/-- A job whose wait runs out twice, first while paused. -/
example : (run init [.submit .job, .wrote 0, .timeout 0 true, .timeout 0 false, .expire 0]).caller 0 =
      some (.job, .done .timedOut) ∧
    (run init [.submit .job, .wrote 0, .timeout 0 true, .expire 0]).caller 0 =
      some (.job, .waiting) := by decide

/-- Two jobs and a pause; responses arrive swapped, with an unknown id and a duplicate; then the
helper dies while the second job is still waiting. -/
example :
    let evs : List Ev := [.submit .job, .submit .job, .submit .pause, .wrote 1, .wrote 0, .wrote 2,
      .read (.job 7 99), .read (.job 1 41), .read (.job 1 42), .read (.paused 2), .recv 1]
    Spec.Returned (run init evs) 1 (.received (.result 41)) ∧
    ∃ own, (∀ e ∈ own, Spec.Own 0 e) ∧ own.length ≤ 2 ∧
      ∃ a, Spec.Returned (run init (evs ++ .readFail :: [.submit .job] ++ own)) 0 a := by
  refine ⟨⟨.job, by decide⟩, C36_crash _ [.submit .job] 0 (by decide) (by decide)⟩

end Verif.HelperIo
