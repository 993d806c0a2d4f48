import Verif.Model.HelperIo
/-! Invariant of the helper conversation. -/

namespace Verif.HelperIo

theorem upd_same {α : Type} (f : Nat → α) (i : Nat) (v : α) : upd f i v i = v := by simp [upd]
theorem upd_ne {α : Type} (f : Nat → α) {i j : Nat} (v : α) (h : j ≠ i) : upd f i v j = f j := by
  simp [upd, h]

/-- The caller has not returned. -/
def Open : Phase → Prop
  | .done _ => False
  | _ => True

/-- The caller still needs an answer. -/
def Needs : Phase → Prop
  | .registered => True
  | .waiting => True
  | _ => False

structure Inv (s : State) : Prop where
  fresh : ∀ id, s.nextId ≤ id → s.caller id = none ∧ s.chan id = none ∧ ∀ k, id ∉ s.pending k
  known : ∀ id, id < s.nextId → ∃ k p, s.caller id = some (k, p)
  pend : ∀ k id, id ∈ s.pending k → (∃ p, s.caller id = some (k, p) ∧ Open p) ∧ s.chan id = none
  need : ∀ id k p, s.caller id = some (k, p) → Needs p → id ∈ s.pending k ∨ (s.chan id).isSome
  result : ∀ id r, s.chan id = some (.result r) → ∃ p, s.caller id = some (.job, p)
  ack : ∀ id, s.chan id = some .ack → ∃ p, s.caller id = some (.pause, p)
  stuck : s.readerStuck = false

theorem inv_init : Inv init := by
  constructor <;> simp [init]

/-- Moving a caller to another phase, possibly removing its table entry. -/
theorem inv_caller {s : State} (h : Inv s) {id : Nat} {k : Kind} {p p' : Phase}
    (hc : s.caller id = some (k, p)) (ho : Open p') (hn : Needs p' → Needs p) :
    Inv { s with caller := upd s.caller id (some (k, p')) } := by
  have hlt : id < s.nextId := by
    rcases Nat.lt_or_ge id s.nextId with h1 | h1
    · exact h1
    · rw [(h.fresh id h1).1] at hc; cases hc
  constructor
  · intro i hi
    have hne : i ≠ id := by have : s.nextId ≤ i := hi; omega
    simpa [upd_ne _ _ hne] using h.fresh i hi
  · intro i hi
    by_cases hq : i = id
    · subst hq; exact ⟨k, p', upd_same _ _ _⟩
    · simpa [upd_ne _ _ hq] using h.known i hi
  · intro k' i hi
    by_cases hq : i = id
    · subst hq
      obtain ⟨⟨q, hq1, _⟩, hch⟩ := h.pend k' i hi
      have : k' = k := by rw [hc] at hq1; cases hq1; rfl
      subst this
      exact ⟨⟨p', upd_same _ _ _, ho⟩, hch⟩
    · simpa [upd_ne _ _ hq] using h.pend k' i hi
  · intro i k' q hq1 hq2
    by_cases hq : i = id
    · subst hq
      simp only [upd_same, Option.some.injEq, Prod.mk.injEq] at hq1
      obtain ⟨rfl, rfl⟩ := hq1
      exact h.need i k p hc (hn hq2)
    · simp only [upd_ne _ _ hq] at hq1
      exact h.need i k' q hq1 hq2
  · intro i r hr
    obtain ⟨q, hq1⟩ := h.result i r hr
    by_cases hq : i = id
    · subst hq; rw [hc] at hq1; cases hq1; exact ⟨p', upd_same _ _ _⟩
    · exact ⟨q, by simp [upd_ne _ _ hq, hq1]⟩
  · intro i hr
    obtain ⟨q, hq1⟩ := h.ack i hr
    by_cases hq : i = id
    · subst hq; rw [hc] at hq1; cases hq1; exact ⟨p', upd_same _ _ _⟩
    · exact ⟨q, by simp [upd_ne _ _ hq, hq1]⟩
  · exact h.stuck

/-- Returning: the table entry and possibly the channel contents go away. -/
theorem inv_done {s : State} (h : Inv s) {id : Nat} {k : Kind} {p : Phase} {a : Answer}
    (hc : s.caller id = some (k, p)) (chan' : Nat → Option Payload)
    (hch : ∀ i, i ≠ id → chan' i = s.chan i) (hid : chan' id = none ∨ chan' id = s.chan id)
    (pending' : Kind → List Nat) (hp : ∀ k' i, i ∈ pending' k' ↔ i ∈ s.pending k' ∧ i ≠ id) :
    Inv { s with caller := upd s.caller id (some (k, .done a)), chan := chan', pending := pending' } := by
  have hlt : id < s.nextId := by
    rcases Nat.lt_or_ge id s.nextId with h1 | h1
    · exact h1
    · rw [(h.fresh id h1).1] at hc; cases hc
  constructor
  · intro i hi
    have hne : i ≠ id := by have : s.nextId ≤ i := hi; omega
    have := h.fresh i hi
    simp only [upd_ne _ _ hne, hch i hne]
    exact ⟨this.1, this.2.1, fun k' hm => this.2.2 k' ((hp k' i).mp hm).1⟩
  · intro i hi
    by_cases hq : i = id
    · subst hq; exact ⟨k, _, upd_same _ _ _⟩
    · simpa [upd_ne _ _ hq] using h.known i hi
  · intro k' i hi
    have hi' := (hp k' i).mp hi
    simp only [upd_ne _ _ hi'.2, hch i hi'.2]
    exact h.pend k' i hi'.1
  · intro i k' q hq1 hq2
    by_cases hq : i = id
    · subst hq
      simp only [upd_same, Option.some.injEq, Prod.mk.injEq] at hq1
      obtain ⟨rfl, rfl⟩ := hq1
      exact hq2.elim
    · simp only [upd_ne _ _ hq] at hq1
      simp only [hch i hq]
      rcases h.need i k' q hq1 hq2 with h1 | h1
      · exact .inl ((hp k' i).mpr ⟨h1, hq⟩)
      · exact .inr h1
  · intro i r hr
    by_cases hq : i = id
    · subst hq
      have hr' : s.chan i = some (.result r) := by
        rcases hid with h1 | h1
        · simp only [h1] at hr; cases hr
        · rw [← h1]; exact hr
      obtain ⟨q, hq1⟩ := h.result i r hr'
      rw [hc] at hq1; cases hq1; exact ⟨_, upd_same _ _ _⟩
    · have hr' : s.chan i = some (.result r) := by rw [← hch i hq]; exact hr
      obtain ⟨q, hq1⟩ := h.result i r hr'
      exact ⟨q, by simp [upd_ne _ _ hq, hq1]⟩
  · intro i hr
    by_cases hq : i = id
    · subst hq
      have hr' : s.chan i = some .ack := by
        rcases hid with h1 | h1
        · simp only [h1] at hr; cases hr
        · rw [← h1]; exact hr
      obtain ⟨q, hq1⟩ := h.ack i hr'
      rw [hc] at hq1; cases hq1; exact ⟨_, upd_same _ _ _⟩
    · have hr' : s.chan i = some .ack := by rw [← hch i hq]; exact hr
      obtain ⟨q, hq1⟩ := h.ack i hr'
      exact ⟨q, by simp [upd_ne _ _ hq, hq1]⟩
  · exact h.stuck

theorem forget_pending {s : State} (h : Inv s) {id : Nat} {k : Kind} {p : Phase}
    (hc : s.caller id = some (k, p)) (k' : Kind) (i : Nat) :
    i ∈ (forget s k id).pending k' ↔ i ∈ s.pending k' ∧ i ≠ id := by
  rw [forget]
  by_cases hk : k' = k
  · subst hk; simp
  · simp only [if_neg hk]
    constructor
    · intro hi
      refine ⟨hi, ?_⟩
      rintro rfl
      obtain ⟨⟨q, hq1, _⟩, _⟩ := h.pend k' i hi
      rw [hc] at hq1; cases hq1; exact hk rfl
    · exact fun hi => hi.1

theorem inv_deliver {s : State} (h : Inv s) (k : Kind) (id : Nat) (p : Payload)
    (hr : ∀ r, p = .result r → k = .job) (ha : p = .ack → k = .pause) : Inv (deliver s k id p) := by
  rw [deliver]
  by_cases hm : id ∈ s.pending k
  · rw [if_pos hm]
    obtain ⟨⟨ph, hc, ho⟩, hch⟩ := h.pend k id hm
    have hlt : id < s.nextId := by
      rcases Nat.lt_or_ge id s.nextId with h1 | h1
      · exact h1
      · exact absurd hm ((h.fresh id h1).2.2 k)
    have hp : ∀ k' i, i ∈ (if k' = k then (s.pending k).filter (· ≠ id) else s.pending k')
        ↔ i ∈ s.pending k' ∧ i ≠ id := forget_pending h hc
    constructor
    · intro i hi
      have hne : i ≠ id := by have : s.nextId ≤ i := hi; omega
      have := h.fresh i hi
      simp only [upd_ne _ _ hne]
      exact ⟨this.1, this.2.1, fun k' hm' => this.2.2 k' ((hp k' i).mp hm').1⟩
    · exact h.known
    · intro k' i hi
      have hi' := (hp k' i).mp hi
      simp only [upd_ne _ _ hi'.2]
      exact h.pend k' i hi'.1
    · intro i k' q hq1 hq2
      by_cases hq : i = id
      · subst hq; right; simp [upd_same]
      · simp only [upd_ne _ _ hq]
        rcases h.need i k' q hq1 hq2 with h1 | h1
        · exact .inl ((hp k' i).mpr ⟨h1, hq⟩)
        · exact .inr h1
    · intro i r hr'
      by_cases hq : i = id
      · subst hq
        simp only [upd_same, Option.some.injEq] at hr'
        have := hr r hr'; subst this; exact ⟨ph, hc⟩
      · simp only [upd_ne _ _ hq] at hr'; exact h.result i r hr'
    · intro i hr'
      by_cases hq : i = id
      · subst hq
        simp only [upd_same, Option.some.injEq] at hr'
        have := ha hr'; subst this; exact ⟨ph, hc⟩
      · simp only [upd_ne _ _ hq] at hr'; exact h.ack i hr'
    · simp [h.stuck, hch]
  · rw [if_neg hm]; exact h

theorem inv_readFail {s : State} (h : Inv s) : Inv (step s .readFail) := by
  simp only [step]
  by_cases ha : s.readerAlive = true
  · rw [if_pos ha]
    constructor
    · intro i hi
      have := h.fresh i hi
      have h1 : ¬ (i ∈ s.pending .job ∨ i ∈ s.pending .pause) := fun hm =>
        hm.elim (this.2.2 _) (this.2.2 _)
      simp only [if_neg h1]
      exact ⟨this.1, this.2.1, fun k' => by simp⟩
    · exact h.known
    · intro k' i hi; simp at hi
    · intro i k' q hq1 hq2
      right
      by_cases h1 : i ∈ s.pending .job ∨ i ∈ s.pending .pause
      · simp only [if_pos h1]; rfl
      · simp only [if_neg h1]
        rcases h.need i k' q hq1 hq2 with h2 | h2
        · cases k' with
          | job => exact absurd (.inl h2) h1
          | pause => exact absurd (.inr h2) h1
        · exact h2
    · intro i r hr
      by_cases h1 : i ∈ s.pending .job ∨ i ∈ s.pending .pause
      · simp only [if_pos h1] at hr; cases hr
      · simp only [if_neg h1] at hr; exact h.result i r hr
    · intro i hr
      by_cases h1 : i ∈ s.pending .job ∨ i ∈ s.pending .pause
      · simp only [if_pos h1] at hr; cases hr
      · simp only [if_neg h1] at hr; exact h.ack i hr
    · have : (s.pending .job ++ s.pending .pause).any (fun id => (s.chan id).isSome) = false := by
        rw [List.any_eq_false]
        intro i hi
        rw [List.mem_append] at hi
        have : s.chan i = none := hi.elim (fun x => (h.pend _ i x).2) (fun x => (h.pend _ i x).2)
        simp [this]
      simp [h.stuck, this]
  · rw [if_neg ha]; exact h

theorem inv_submit {s : State} (h : Inv s) (k : Kind) : Inv (step s (.submit k)) := by
  simp only [step]
  have hf := h.fresh s.nextId (Nat.le_refl _)
  have hp : ∀ k' i, i ∈ (if k' = k then s.nextId :: s.pending k else s.pending k') →
      i ∈ s.pending k' ∨ (i = s.nextId ∧ k' = k) := by
    intro k' i hi
    by_cases hk : k' = k
    · subst hk; simp at hi; rcases hi with hi | hi
      · exact .inr ⟨hi, rfl⟩
      · exact .inl hi
    · rw [if_neg hk] at hi; exact .inl hi
  constructor
  · intro i hi
    have hi' : s.nextId + 1 ≤ i := hi
    have hne : i ≠ s.nextId := by omega
    have := h.fresh i (by omega)
    simp only [upd_ne _ _ hne]
    refine ⟨this.1, this.2.1, fun k' hm => ?_⟩
    rcases hp k' i hm with h1 | h1
    · exact this.2.2 k' h1
    · exact hne h1.1
  · intro i hi
    have hi' : i < s.nextId + 1 := hi
    by_cases hq : i = s.nextId
    · subst hq; exact ⟨k, _, upd_same _ _ _⟩
    · simp only [upd_ne _ _ hq]; exact h.known i (by omega)
  · intro k' i hi
    rcases hp k' i hi with h1 | ⟨rfl, rfl⟩
    · have hq : i ≠ s.nextId := fun he => hf.2.2 k' (he ▸ h1)
      simp only [upd_ne _ _ hq]; exact h.pend k' i h1
    · exact ⟨⟨_, upd_same _ _ _, trivial⟩, hf.2.1⟩
  · intro i k' q hq1 hq2
    by_cases hq : i = s.nextId
    · subst hq
      simp only [upd_same, Option.some.injEq, Prod.mk.injEq] at hq1
      obtain ⟨rfl, rfl⟩ := hq1
      left; simp
    · simp only [upd_ne _ _ hq] at hq1
      rcases h.need i k' q hq1 hq2 with h1 | h1
      · left
        by_cases hk : k' = k
        · subst hk; simp [h1]
        · simp [if_neg hk, h1]
      · exact .inr h1
  · intro i r hr
    obtain ⟨q, hq1⟩ := h.result i r hr
    have hq : i ≠ s.nextId := by rintro rfl; rw [hf.1] at hq1; cases hq1
    exact ⟨q, by simp [upd_ne _ _ hq, hq1]⟩
  · intro i hr
    obtain ⟨q, hq1⟩ := h.ack i hr
    have hq : i ≠ s.nextId := by rintro rfl; rw [hf.1] at hq1; cases hq1
    exact ⟨q, by simp [upd_ne _ _ hq, hq1]⟩
  · exact h.stuck

/-- The waiting caller either still has its table entry or has a message: the sender never vanishes. -/
theorem disconnect_noop {s : State} (h : Inv s) (id : Nat) : step s (.disconnect id) = s := by
  simp only [step]
  split
  · rename_i k hc hch
    rcases h.need id k _ hc trivial with h1 | h1
    · rw [if_pos h1]
    · rw [hch] at h1; cases h1
  · rfl

theorem inv_step {s : State} (h : Inv s) (e : Ev) : Inv (step s e) := by
  cases e with
  | submit k => exact inv_submit h k
  | wrote id =>
    simp only [step]; split
    · rename_i k hc; exact inv_caller h hc trivial (fun _ => trivial)
    · exact h
  | writeFail id =>
    simp only [step]; split
    · rename_i k hc
      exact inv_done h hc s.chan (fun _ _ => rfl) (.inr rfl) _ (forget_pending h hc)
    · exact h
  | read m =>
    simp only [step]; split
    · cases m with
      | job id r => exact inv_deliver h _ _ _ (fun _ _ => rfl) (by simp)
      | paused id => exact inv_deliver h _ _ _ (by simp) (fun _ => rfl)
    · exact h
  | readFail => exact inv_readFail h
  | recv id =>
    simp only [step]; split
    · rename_i k p hc hch
      refine inv_done h hc _ (fun i hi => upd_ne _ _ hi) (.inl (upd_same _ _ _)) s.pending ?_
      intro k' i
      constructor
      · intro hi
        refine ⟨hi, ?_⟩
        rintro rfl
        rw [(h.pend k' i hi).2] at hch; cases hch
      · exact fun hi => hi.1
    · exact h
  | timeout id paused =>
    simp only [step]; split
    · rename_i hc hch
      split
      · exact h
      · exact inv_caller h hc trivial (fun hn => hn.elim)
    · rename_i hc hch
      exact inv_caller h hc trivial (fun hn => hn.elim)
    · exact h
  | expire id =>
    simp only [step]; split
    · rename_i k hc
      exact inv_done h hc s.chan (fun _ _ => rfl) (.inr rfl) _ (forget_pending h hc)
    · exact h
  | disconnect id => rw [disconnect_noop h]; exact h

theorem inv_run {s : State} (h : Inv s) (evs : List Ev) : Inv (run s evs) := by
  induction evs generalizing s with
  | nil => exact h
  | cons e r ih => exact ih (inv_step h e)

theorem run_append (s : State) (a b : List Ev) : run s (a ++ b) = run (run s a) b := List.foldl_append

/-- A caller that has returned stays as it is. -/
theorem done_step {s : State} (h : Inv s) {id : Nat} {k : Kind} {a : Answer}
    (hd : s.caller id = some (k, .done a)) (e : Ev) : (step s e).caller id = some (k, .done a) := by
  have key : ∀ (i : Nat) (x : Option (Kind × Phase)), s.caller i ≠ some (k, .done a) →
      upd s.caller i x id = some (k, .done a) := by
    intro i x hi
    have : id ≠ i := by rintro rfl; exact hi hd
    rw [upd_ne _ _ this, hd]
  cases e with
  | submit k' =>
    simp only [step]
    refine key _ _ ?_
    rw [(h.fresh _ (Nat.le_refl _)).1]; simp
  | wrote i => simp only [step]; split <;> first | exact hd | (rename_i hc; exact key _ _ (by rw [hc]; simp))
  | writeFail i => simp only [step]; split <;> first | exact hd | (rename_i hc; exact key _ _ (by rw [hc]; simp))
  | read m =>
    simp only [step]; split
    · cases m <;> simp only [deliver] <;> split <;> exact hd
    · exact hd
  | readFail => simp only [step]; split <;> exact hd
  | recv i => simp only [step]; split <;> first | exact hd | (rename_i hc _; exact key _ _ (by rw [hc]; simp))
  | timeout i p =>
    simp only [step]; split
    · rename_i hc _
      split
      · exact hd
      · exact key _ _ (by rw [hc]; simp)
    · rename_i hc _; exact key _ _ (by rw [hc]; simp)
    · exact hd
  | expire i => simp only [step]; split <;> first | exact hd | (rename_i hc; exact key _ _ (by rw [hc]; simp))
  | disconnect i => rw [disconnect_noop h]; exact hd

end Verif.HelperIo
