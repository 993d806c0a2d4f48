import Verif.Spec.Pause
/-!
# Lemmas: pause and resume
-/

namespace Verif.Pause

theorem outstanding_append (a b : List Ev) :
    Spec.outstanding (a ++ b) = Spec.outstanding a + Spec.outstanding b := by
  induction a with
  | nil => simp [Spec.outstanding]
  | cons e r ih => cases e <;> simp [Spec.outstanding, ih] <;> omega

/-- The last pause/resume command of a list, if any, says paused. -/
def lastCmd (b : Bool) : List Cmd → Bool
  | [] => b
  | .pause :: r => lastCmd true r
  | .resume :: r => lastCmd false r
  | .other :: r => lastCmd b r

theorem lastCmd_append (b : Bool) (a c : List Cmd) : lastCmd b (a ++ c) = lastCmd (lastCmd b a) c := by
  induction a generalizing b with
  | nil => rfl
  | cons x r ih => cases x <;> simp [lastCmd, ih]

structure Inv (s : State) : Prop where
  started : s.started = true
  /-- What will hold when everything in flight has been handled. -/
  final : lastCmd s.flag (s.queue ++ s.toSend) = decide (0 < s.depth)
  one : s.toSend.length ≤ 1
  helper : ∀ h, s.helper = some h → h = s.flag

theorem inv_step (cap : Nat) {s : State} (h : Inv s) (e : Ev)
    (hs : e = .pauseAtomic ∨ e = .resumeAtomic → s.toSend = []) (hm : e = .resumeAtomic → 0 < s.depth)
    (hd : (step cap s e).dropped = 0) : Inv (step cap s e) := by
  have ho := h.one
  cases e with
  | pauseAtomic =>
    have ht := hs (.inl rfl)
    have hf := h.final
    rw [ht, List.append_nil] at hf
    constructor
    · exact h.started
    · simp only [step, ht]
      by_cases h0 : s.depth = 0
      · simp [h0, lastCmd_append, lastCmd]
      · simp only [h0, if_false, List.append_nil, hf]; simp; omega
    · simp only [step, ht]; split <;> simp
    · exact h.helper
  | resumeAtomic =>
    have ht := hs (.inr rfl)
    have hp := hm rfl
    have hf := h.final
    rw [ht, List.append_nil] at hf
    constructor
    · exact h.started
    · simp only [step, ht]
      by_cases h0 : s.depth = 1
      · simp [h0, lastCmd_append, lastCmd]
      · simp only [h0, if_false, List.append_nil, hf]; simp; omega
    · simp only [step, ht]; split <;> simp
    · exact h.helper
  | send i =>
    simp only [step] at hd ⊢
    cases hi : s.toSend[i]? with
    | none => simp only [hi] at hd ⊢; exact h
    | some c =>
      simp only [hi] at hd ⊢
      have hts : s.toSend = [c] := by
        match hq : s.toSend, ho, hi with
        | [x], _, hi =>
          have : i = 0 := by
            rcases Nat.eq_zero_or_pos i with h0 | h0
            · exact h0
            · rw [List.getElem?_eq_none (by simp; omega)] at hi; cases hi
          subst this; simpa using hi
      have hi0 : i = 0 := by
        rcases Nat.eq_zero_or_pos i with h0 | h0
        · exact h0
        · rw [hts, List.getElem?_eq_none (by simp; omega)] at hi; cases hi
      subst hi0
      simp only [trySend, h.started, Bool.not_true, Bool.false_eq_true, if_false] at hd ⊢
      split at hd
      · rename_i hl
        rw [if_pos hl]
        have hf := h.final
        rw [hts] at hf
        exact ⟨rfl, by simpa [hts] using hf, by simp [hts], h.helper⟩
      · simp at hd
  | other =>
    simp only [step]; split
    · refine ⟨h.started, ?_, ho, h.helper⟩
      have hf := h.final
      simp only [lastCmd_append] at hf ⊢
      simpa [lastCmd] using hf
    · exact h
  | drain =>
    simp only [step]
    cases hq : s.queue with
    | nil => exact h
    | cons c r =>
      have hf := h.final
      rw [hq] at hf
      cases c with
      | pause =>
        refine ⟨h.started, hf, ho, ?_⟩
        intro b hb; simp only [handle, Option.map_eq_some_iff] at hb
        obtain ⟨_, _, rfl⟩ := hb; rfl
      | resume =>
        refine ⟨h.started, hf, ho, ?_⟩
        intro b hb; simp only [handle, Option.map_eq_some_iff] at hb
        obtain ⟨_, _, rfl⟩ := hb; rfl
      | other => exact ⟨h.started, hf, ho, h.helper⟩
  | spawn =>
    simp only [step]
    cases hh : s.helper with
    | none => exact ⟨h.started, h.final, ho, fun b hb => by cases hb; rfl⟩
    | some b => exact h
  | discard => exact ⟨h.started, h.final, ho, fun b hb => by cases hb⟩

theorem dropped_step (cap : Nat) (s : State) (e : Ev) : s.dropped ≤ (step cap s e).dropped := by
  cases e with
  | send i =>
    simp only [step]; split
    · exact Nat.le_refl _
    · simp only [trySend]; split
      · exact Nat.le_refl _
      · split
        · exact Nat.le_refl _
        · simp
  | drain =>
    simp only [step]; split
    · exact Nat.le_refl _
    · rename_i c r _; cases c <;> exact Nat.le_refl _
  | other => simp only [step]; split <;> exact Nat.le_refl _
  | spawn => simp only [step]; split <;> exact Nat.le_refl _
  | _ => exact Nat.le_refl _

theorem depth_step (cap : Nat) (s : State) (e : Ev) (h : e = .resumeAtomic → 0 < s.depth) :
    ((step cap s e).depth : Int) = s.depth + Spec.outstanding [e] := by
  cases e with
  | send i =>
    simp only [step]; split
    · simp [Spec.outstanding]
    · simp only [trySend]; split
      · simp [Spec.outstanding]
      · split <;> simp [Spec.outstanding]
  | drain =>
    simp only [step]; split
    · simp [Spec.outstanding]
    · rename_i c r _; cases c <;> simp [handle, Spec.outstanding]
  | other => simp only [step]; split <;> simp [Spec.outstanding]
  | spawn => simp only [step]; split <;> simp [Spec.outstanding]
  | discard => simp [step, Spec.outstanding]
  | pauseAtomic => simp [step, Spec.outstanding]
  | resumeAtomic => have := h rfl; simp [step, Spec.outstanding]; omega

theorem run_snoc (cap : Nat) (s : State) (l : List Ev) (e : Ev) :
    run cap s (l ++ [e]) = step cap (run cap s l) e := by
  simp [run, List.foldl_append]

theorem matched_prefix {l : List Ev} {e : Ev} (h : Spec.Matched (l ++ [e])) : Spec.Matched l := by
  intro n
  rcases Nat.lt_or_ge n l.length with hn | hn
  · have := h n
    rwa [List.take_append_of_le_length (Nat.le_of_lt hn)] at this
  · have := h l.length
    rw [List.take_append_of_le_length (Nat.le_refl _), List.take_length] at this
    rwa [List.take_of_length_le hn]

theorem run_facts (cap : Nat) (evs : List Ev) (hm : Spec.Matched evs) :
    ((run cap (init true) evs).depth : Int) = Spec.outstanding evs := by
  induction evs using Verif.snocInd with
  | nil => rfl
  | append_singleton l e ih =>
    have hl := ih (matched_prefix hm)
    have h1 := hm (l ++ [e]).length
    rw [List.take_length, outstanding_append] at h1
    rw [run_snoc, outstanding_append, ← hl]
    apply depth_step
    rintro rfl
    rw [← hl] at h1
    simp [Spec.outstanding] at h1
    omega

end Verif.Pause
