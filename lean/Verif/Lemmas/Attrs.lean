import Verif.Spec.Attrs
/-!
# All runs of a body, as a list
-/

namespace Verif.Attrs

open Spec

/-- All runs of a body (proof device). -/
def Body.traces : Body → List (List Acc × Out)
  | .done o => [([], o)]
  | .act a k => k.traces.map fun r => (a :: r.1, r.2)
  | .alt l r => l.traces ++ r.traces

theorem Body.Runs.mem {b t o} (h : Body.Runs b t o) : (t, o) ∈ b.traces := by
  induction h with
  | done o => simp [traces]
  | act _ ih => simp only [traces, List.mem_map]; exact ⟨_, ih, rfl⟩
  | left _ ih => simp only [traces, List.mem_append]; exact .inl ih
  | right _ ih => simp only [traces, List.mem_append]; exact .inr ih

theorem Body.runs_of_mem {b : Body} : ∀ {t o}, (t, o) ∈ b.traces → Body.Runs b t o := by
  induction b with
  | done o => intro t o' h; simp [traces] at h; obtain ⟨rfl, rfl⟩ := h; exact .done _
  | act a k ih =>
    intro t o h
    simp only [traces, List.mem_map] at h
    obtain ⟨⟨t', o'⟩, h, e⟩ := h
    simp only [Prod.mk.injEq] at e
    obtain ⟨rfl, rfl⟩ := e
    exact .act (ih h)
  | alt l r ihl ihr =>
    intro t o h
    simp only [traces, List.mem_append] at h
    rcases h with h | h
    · exact .left (ihl h)
    · exact .right (ihr h)

/-- Scan for a read of `w` before a write of it. -/
def freshB (p w : Nat) : List Acc → Bool
  | [] => true
  | a :: t => if a = .ptr p w true then true else a != .ptr p w false && freshB p w t

theorem freshB_iff (p w : Nat) : ∀ t, freshB p w t = true → FreshBeforeRead p w t
  | [], _ => by intro t₁ t₂ h; simp at h
  | a :: t, h => by
    intro t₁ t₂ e
    unfold freshB at h
    by_cases ha : a = .ptr p w true
    · cases t₁ with
      | nil => simp at e; rw [e.1] at ha; cases ha
      | cons b t₁ => simp at e; rw [← e.1, ha]; exact List.mem_cons_self ..
    · rw [if_neg ha] at h
      simp only [Bool.and_eq_true, bne_iff_ne, ne_eq] at h
      cases t₁ with
      | nil => simp at e; exact absurd e.1 h.1
      | cons b t₁ =>
        simp at e
        exact List.mem_cons_of_mem _ (freshB_iff p w t h.2 t₁ t₂ e.2)

/-- Read without an earlier write: scan collecting the words read first. -/
def readsB (p : Nat) (ok : Nat → Bool) (seen : List Nat) : List Acc → Bool
  | [] => true
  | .ptr q w true :: t => readsB p ok (if q = p then w :: seen else seen) t
  | .ptr q w false :: t => (q != p || ok w || seen.contains w) && readsB p ok seen t
  | _ :: t => readsB p ok seen t

theorem readsB_sound (p : Nat) (ok : Nat → Bool) : ∀ (t : List Acc) (seen : List Nat),
    readsB p ok seen t = true → ∀ w t₁ t₂, t = t₁ ++ .ptr p w false :: t₂ →
      ok w = true ∨ w ∈ seen ∨ .ptr p w true ∈ t₁ := by
  intro t
  induction t with
  | nil => intro seen h w t₁ t₂ e; simp at e
  | cons a t ih =>
    intro seen h w t₁ t₂ e
    cases t₁ with
    | nil =>
      simp at e
      obtain ⟨rfl, rfl⟩ := e
      simp only [readsB, Bool.and_eq_true, Bool.or_eq_true, bne_self_eq_false, Bool.false_eq_true,
        false_or] at h
      rcases h.1 with h | h
      · exact .inl h
      · exact .inr (.inl (by simpa using h))
    | cons b t₁ =>
      simp at e
      obtain ⟨rfl, e⟩ := e
      cases a with
      | far x => exact (ih seen h w t₁ t₂ e).imp_right (Or.imp_right (List.mem_cons_of_mem _))
      | free => exact (ih seen h w t₁ t₂ e).imp_right (Or.imp_right (List.mem_cons_of_mem _))
      | ptr q v x =>
        cases x with
        | false =>
          simp only [readsB, Bool.and_eq_true] at h
          exact (ih seen h.2 w t₁ t₂ e).imp_right (Or.imp_right (List.mem_cons_of_mem _))
        | true =>
          simp only [readsB] at h
          rcases ih _ h w t₁ t₂ e with h | h | h
          · exact .inl h
          · by_cases hq : q = p
            · rw [if_pos hq] at h
              rcases List.mem_cons.1 h with rfl | h
              · subst hq; exact .inr (.inr (List.mem_cons_self ..))
              · exact .inr (.inl h)
            · rw [if_neg hq] at h; exact .inr (.inl h)
          · exact .inr (.inr (List.mem_cons_of_mem _ h))

/-- The arguments allowed, as a list. -/
def argsOf : Bi → List Nat
  | .log => [0, 1, 2, 3, 4]
  | .create => [0, 1]
  | .call => [0, 1, 2, 3]
  | _ => [0]

/-- The body depends on the argument only for the three that use it. -/
theorem body_arg {b : Bi} {n : Nat} (h : ArgOk b n) : ∃ m ∈ argsOf b, b.body n = b.body m := by
  cases b
  case log =>
    have h' : n ≤ 4 := h
    exact ⟨n, by simp [argsOf]; omega, rfl⟩
  case create =>
    have h' : n < 2 := h
    exact ⟨n, by simp [argsOf]; omega, rfl⟩
  case call =>
    have h' : n < 4 := h
    exact ⟨n, by simp [argsOf]; omega, rfl⟩
  all_goals exact ⟨0, by simp [argsOf], rfl⟩

theorem Bi.mem_all (b : Bi) : b ∈ Bi.all := by cases b <;> decide

/-- Every run of every builtin, with the builtin. -/
def everyRun (P : Bi → List Acc → Out → Bool) : Bool :=
  Bi.all.all fun b => (argsOf b).all fun n => (b.body n).traces.all fun r => P b r.1 r.2

theorem everyRun_sound {P : Bi → List Acc → Out → Bool} (h : everyRun P = true) {b : Bi} {n : Nat}
    (ha : ArgOk b n) {t o} (hr : Body.Runs (b.body n) t o) : P b t o = true := by
  obtain ⟨m, hm, e⟩ := body_arg ha
  rw [e] at hr
  simp only [everyRun, List.all_eq_true] at h
  exact h b (Bi.mem_all b) m hm _ hr.mem

end Verif.Attrs
