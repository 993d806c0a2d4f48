import Verif.Spec.HelperIo
/-!
# Lemmas: helper conversation
-/

namespace Verif.HelperIo

theorem chan_step {s : State} (h : Inv s) {id : Nat} {r : Result} (e : Ev)
    (hc : (step s e).chan id = some (.result r)) :
    s.chan id = some (.result r) ∨
      (e = .read (.job id r) ∧ s.readerAlive = true ∧ id < s.nextId) := by
  cases e with
  | submit k => exact .inl hc
  | wrote i => simp only [step] at hc; split at hc <;> exact .inl hc
  | writeFail i => simp only [step] at hc; split at hc <;> exact .inl hc
  | read m =>
    simp only [step] at hc
    split at hc
    · rename_i ha
      cases m with
      | job i r' =>
        simp only [deliver] at hc
        split at hc
        · rename_i hm
          by_cases hq : id = i
          · subst hq
            simp only [upd_same, Option.some.injEq, Payload.result.injEq] at hc
            subst hc
            refine .inr ⟨rfl, ha, ?_⟩
            rcases Nat.lt_or_ge id s.nextId with h1 | h1
            · exact h1
            · exact absurd hm ((h.fresh id h1).2.2 _)
          · simp only [upd_ne _ _ hq] at hc; exact .inl hc
        · exact .inl hc
      | paused i =>
        simp only [deliver] at hc
        split at hc
        · by_cases hq : id = i
          · subst hq; simp only [upd_same, Option.some.injEq, reduceCtorEq] at hc
          · simp only [upd_ne _ _ hq] at hc; exact .inl hc
        · exact .inl hc
    · exact .inl hc
  | readFail =>
    simp only [step] at hc
    split at hc
    · simp only at hc
      split at hc
      · cases hc
      · exact .inl hc
    · exact .inl hc
  | recv i =>
    simp only [step] at hc
    split at hc
    · by_cases hq : id = i
      · subst hq; simp only [upd_same, reduceCtorEq] at hc
      · simp only [upd_ne _ _ hq] at hc; exact .inl hc
    · exact .inl hc
  | timeout i p =>
    simp only [step] at hc
    split at hc
    · split at hc <;> exact .inl hc
    · exact .inl hc
    · exact .inl hc
  | expire i => simp only [step] at hc; split at hc <;> exact .inl hc
  | disconnect i => rw [disconnect_noop h] at hc; exact .inl hc

theorem caller_step {s : State} (h : Inv s) {id : Nat} {k : Kind} {p : Payload} (e : Ev)
    (hc : (step s e).caller id = some (k, .done (.received p))) :
    s.caller id = some (k, .done (.received p)) ∨
      (s.caller id = some (k, .waiting) ∧ s.chan id = some p) := by
  have key : ∀ (i : Nat) (x : Kind × Phase), (∀ q, x.2 ≠ .done (.received q)) →
      upd s.caller i (some x) id = some (k, .done (.received p)) →
      s.caller id = some (k, .done (.received p)) := by
    intro i x hx hu
    by_cases hq : id = i
    · subst hq
      rw [upd_same, Option.some.injEq] at hu
      exact absurd (by rw [hu]) (hx p)
    · rwa [upd_ne _ _ hq] at hu
  cases e with
  | submit k' => exact .inl (key _ _ (by simp) hc)
  | wrote i =>
    simp only [step] at hc; split at hc
    · exact .inl (key _ _ (by simp) hc)
    · exact .inl hc
  | writeFail i =>
    simp only [step] at hc; split at hc
    · exact .inl (key _ _ (by simp) hc)
    · exact .inl hc
  | read m =>
    simp only [step] at hc; split at hc
    · cases m <;> simp only [deliver] at hc <;> split at hc <;> exact .inl hc
    · exact .inl hc
  | readFail => simp only [step] at hc; split at hc <;> exact .inl hc
  | recv i =>
    simp only [step] at hc; split at hc
    · rename_i k' p' hc' hch
      by_cases hq : id = i
      · subst hq
        simp only [upd_same, Option.some.injEq, Prod.mk.injEq, Phase.done.injEq,
          Answer.received.injEq] at hc
        obtain ⟨rfl, rfl⟩ := hc
        exact .inr ⟨hc', hch⟩
      · simp only [upd_ne _ _ hq] at hc; exact .inl hc
    · exact .inl hc
  | timeout i p' =>
    simp only [step] at hc; split at hc
    · split at hc
      · exact .inl hc
      · exact .inl (key _ _ (by simp) hc)
    · exact .inl (key _ _ (by simp) hc)
    · exact .inl hc
  | expire i =>
    simp only [step] at hc; split at hc
    · exact .inl (key _ _ (by simp) hc)
    · exact .inl hc
  | disconnect i => rw [disconnect_noop h] at hc; exact .inl hc

theorem ReadAfterSubmit.snoc {evs : List Ev} {id : Nat} {r : Result}
    (h : Spec.ReadAfterSubmit evs id r) (e : Ev) : Spec.ReadAfterSubmit (evs ++ [e]) id r := by
  obtain ⟨pre, post, rfl, h1, h2⟩ := h
  exact ⟨pre, post ++ [e], by simp, h1, h2⟩

theorem history (evs : List Ev) : ∀ id r,
    ((run init evs).chan id = some (.result r) ∨
      ∃ k, (run init evs).caller id = some (k, .done (.received (.result r)))) →
    Spec.ReadAfterSubmit evs id r ∧ ∃ p, (run init evs).caller id = some (.job, p) := by
  induction evs using Verif.snocInd with
  | nil => intro id r h; simp [run, init] at h
  | append_singleton l e ih =>
    intro id r h
    have hi := inv_run inv_init l
    have hi' := inv_run inv_init (l ++ [e])
    have hstep : run init (l ++ [e]) = step (run init l) e := by rw [run_append]; rfl
    rcases h with h | ⟨k, h⟩
    · refine ⟨?_, hi'.result id r h⟩
      rw [hstep] at h
      rcases chan_step hi e h with h1 | ⟨rfl, h1, h2⟩
      · exact ReadAfterSubmit.snoc (ih id r (.inl h1)).1 e
      · exact ⟨l, [], rfl, h2, h1⟩
    · have h0 := h
      rw [hstep] at h
      rcases caller_step hi e h with h1 | ⟨h1, h2⟩
      · obtain ⟨a, p, hp⟩ := ih id r (.inr ⟨k, h1⟩)
        rw [h1] at hp; cases hp
        exact ⟨ReadAfterSubmit.snoc a e, _, h0⟩
      · obtain ⟨a, p, hp⟩ := ih id r (.inl h2)
        rw [h1] at hp; cases hp
        exact ⟨ReadAfterSubmit.snoc a e, _, h0⟩

end Verif.HelperIo
