import Verif.Model.ObjCapture
/-!
# Properties: capture of compiled objects (C81)
-/

namespace Verif.ObjCapture

/-- One thread by itself: the last object of each lookup that is going on, innermost first, and what the finished
ones found, latest first. -/
def alone (p : List (Option Obj) × List (Option Obj)) : Act → List (Option Obj) × List (Option Obj)
  | .begin => (none :: p.1, p.2)
  | .object o => match p.1 with
    | _ :: r => (some o :: r, p.2)
    | [] => p
  | .finish => match p.1 with
    | x :: r => (r, x :: p.2)
    | [] => p

/-- The actions of thread `t`. -/
def only (t : Nat) (evs : List (Nat × Act)) : List Act := (evs.filter (·.1 = t)).map (·.2)

/-- What thread `t` would see if it were the only one. -/
def view (t : Nat) (evs : List (Nat × Act)) : List (Option Obj) × List (Option Obj) :=
  (only t evs).foldl alone ([], [])

/-- Every guard remembers the slot of the next outer one. -/
def Linked : List (Nat × Option Nat) → Prop
  | [] => True
  | (_, p) :: r => p = r.head?.map (·.1) ∧ Linked r

structure Inv (s : Proc) (v : Nat → List (Option Obj) × List (Option Obj)) : Prop where
  cell : ∀ t, s.cell t = (s.guards t).head?.map (·.1)
  link : ∀ t, Linked (s.guards t)
  lt : ∀ t, ∀ n ∈ (s.guards t).map (·.1), n < s.next
  nodup : ∀ t, ((s.guards t).map (·.1)).Nodup
  apart : ∀ t u, t ≠ u → ∀ n ∈ (s.guards t).map (·.1), n ∉ (s.guards u).map (·.1)
  vals : ∀ t, ((s.guards t).map (·.1)).map s.slot = (v t).1
  out : ∀ t, (s.captured.filter (·.1 = t)).map (·.2) = (v t).2

theorem map_upd_of_not_mem {α : Type} (f : Nat → α) (i : Nat) (x : α) (l : List Nat) (h : i ∉ l) :
    l.map (upd f i x) = l.map f := by
  apply List.map_congr_left
  intro j hj
  simp only [upd]
  rw [if_neg]
  rintro rfl
  exact h hj

theorem inv_step {s : Proc} {v : Nat → List (Option Obj) × List (Option Obj)} (h : Inv s v) (t : Nat) (a : Act) :
    Inv (step s (t, a)) (upd v t (alone (v t) a)) := by
  cases a with
  | begin =>
    have hn : ∀ u, s.next ∉ (s.guards u).map (·.1) := fun u hm => Nat.lt_irrefl _ (h.lt u _ hm)
    constructor
    · intro u; by_cases e : u = t
      · simp [step, upd, e]
      · simp [step, upd, e, h.cell]
    · intro u; by_cases e : u = t
      · simp [step, upd, e, Linked, h.cell, h.link]
      · simp [step, upd, e, h.link]
    · intro u n hm; by_cases e : u = t
      · simp only [step, upd, e, if_true, List.map_cons, List.mem_cons] at hm
        show n < s.next + 1
        rcases hm with rfl | hm
        · omega
        · have := h.lt t n hm; omega
      · simp only [step, upd, e, if_false] at hm
        show n < s.next + 1
        have := h.lt u n hm; omega
    · intro u; by_cases e : u = t
      · simp only [step, upd, e, if_true, List.map_cons, List.nodup_cons]
        exact ⟨hn t, h.nodup t⟩
      · simp only [step, upd, e, if_false]; exact h.nodup u
    · intro u w huw n hm
      by_cases e : u = t
      · have ew : w ≠ t := fun x => huw (e.trans x.symm)
        simp only [step, upd, e, if_true, List.map_cons, List.mem_cons] at hm
        simp only [step, upd, ew, if_false]
        rcases hm with rfl | hm
        · exact hn w
        · exact h.apart t w (fun x => ew x.symm) n hm
      · simp only [step, upd, e, if_false] at hm
        by_cases ew : w = t
        · simp only [step, upd, ew, if_true, List.map_cons, List.mem_cons, not_or]
          exact ⟨fun x => hn u (x ▸ hm), h.apart u t e n hm⟩
        · simp only [step, upd, ew, if_false]; exact h.apart u w huw n hm
    · intro u
      by_cases e : u = t
      · subst e
        show List.map (upd s.slot s.next none) (List.map _ (upd s.guards u _ u)) = (upd v u _ u).1
        simp only [upd, if_true, List.map_cons, alone]
        congr 1
        exact (map_upd_of_not_mem s.slot s.next none _ (hn u)).trans (h.vals u)
      · show List.map (upd s.slot s.next none) (List.map _ (upd s.guards t _ u)) = (upd v t _ u).1
        have e1 : upd s.guards t ((s.next, s.cell t) :: s.guards t) u = s.guards u := if_neg e
        have e2 : upd v t (alone (v t) .begin) u = v u := if_neg e
        rw [e1, e2, map_upd_of_not_mem _ _ _ _ (hn u)]
        exact h.vals u
    · intro u
      show _ = (upd v t _ u).2
      by_cases e : u = t
      · subst e; simp only [upd, if_true, alone]; exact h.out u
      · simp only [upd, e, if_false]; exact h.out u
  | object o =>
    have hv := h.vals t
    have hc := h.cell t
    cases hg : s.guards t with
    | nil =>
      rw [hg] at hv hc
      have e1 : step s (t, .object o) = s := by simp [step, hc]
      have e2 : upd v t (alone (v t) (.object o)) = v := by
        funext u; simp only [upd]; split
        · rename_i e; subst e; simp only [alone, ← hv, List.map_nil]
        · rfl
      rw [e1, e2]; exact h
    | cons g r =>
      rw [hg] at hv hc
      have e1 : step s (t, .object o) = { s with slot := upd s.slot g.1 (some o) } := by simp [step, hc]
      rw [e1]
      refine ⟨h.cell, h.link, h.lt, h.nodup, h.apart, ?_, ?_⟩
      · intro u
        by_cases e : u = t
        · subst e
          have hnd := h.nodup u
          rw [hg, List.map_cons, List.nodup_cons] at hnd
          show List.map (upd s.slot g.1 (some o)) (List.map _ (s.guards u)) = (upd v u _ u).1
          rw [hg]
          simp only [List.map_cons] at hv
          have e3 : (upd v u (alone (v u) (.object o)) u) = alone (v u) (.object o) := if_pos rfl
          rw [e3]
          simp only [alone, ← hv, List.map_cons]
          rw [map_upd_of_not_mem _ _ _ _ hnd.1]
          simp [upd]
        · show List.map (upd s.slot g.1 (some o)) (List.map _ (s.guards u)) = (upd v t _ u).1
          have e2 : upd v t (alone (v t) (.object o)) u = v u := if_neg e
          rw [e2, map_upd_of_not_mem _ _ _ _ (h.apart t u (fun x => e x.symm) g.1 (by rw [hg]; simp))]
          exact h.vals u
      · intro u
        show _ = (upd v t _ u).2
        by_cases e : u = t
        · subst e
          have e3 : (upd v u (alone (v u) (.object o)) u) = alone (v u) (.object o) := if_pos rfl
          rw [e3]
          simp only [alone, ← hv, List.map_cons]; exact h.out u
        · have e2 : upd v t (alone (v t) (.object o)) u = v u := if_neg e
          rw [e2]; exact h.out u
  | finish =>
    have hv := h.vals t
    cases hg : s.guards t with
    | nil =>
      rw [hg] at hv
      have e1 : step s (t, .finish) = s := by simp [step, hg]
      have e2 : upd v t (alone (v t) .finish) = v := by
        funext u; simp only [upd]; split
        · rename_i e; subst e; simp only [alone, ← hv, List.map_nil]
        · rfl
      rw [e1, e2]; exact h
    | cons g r =>
      obtain ⟨n, p⟩ := g
      rw [hg] at hv
      have e1 : step s (t, .finish) = { s with
        cell := upd s.cell t p, guards := upd s.guards t r, captured := (t, s.slot n) :: s.captured } := by
        simp [step, hg]
      have hl := h.link t
      rw [hg] at hl
      have hsub : ∀ u, ∀ m ∈ (upd s.guards t r u).map (·.1), m ∈ (s.guards u).map (·.1) := by
        intro u m hm
        by_cases e : u = t
        · subst e
          simp only [upd, if_true] at hm
          rw [hg]; exact List.mem_cons_of_mem _ hm
        · simp only [upd, e, if_false] at hm; exact hm
      rw [e1]
      constructor
      · intro u; by_cases e : u = t
        · simp [upd, e, hl.1]
        · simp [upd, e, h.cell]
      · intro u; by_cases e : u = t
        · simp [upd, e, hl.2]
        · simp [upd, e, h.link]
      · exact fun u m hm => h.lt u m (hsub u m hm)
      · intro u; by_cases e : u = t
        · have := h.nodup t
          rw [hg, List.map_cons, List.nodup_cons] at this
          simp only [upd, e, if_true]; exact this.2
        · simp only [upd, e, if_false]; exact h.nodup u
      · exact fun u w huw m hm hm' => h.apart u w huw m (hsub u m hm) (hsub w m hm')
      · intro u
        show List.map s.slot (List.map _ (upd s.guards t r u)) = (upd v t _ u).1
        by_cases e : u = t
        · subst e
          simp only [upd, if_true, alone, ← hv, List.map_cons]
        · simp only [upd, e, if_false]; exact h.vals u
      · intro u
        show (((t, s.slot n) :: s.captured).filter (·.1 = u)).map (·.2) = (upd v t _ u).2
        by_cases e : u = t
        · subst e
          simp only [upd, if_true, alone, ← hv, List.map_cons]
          simp [h.out]
        · have e' : t ≠ u := fun x => e x.symm
          simp [upd, e, e', h.out]

theorem view_concat (evs : List (Nat × Act)) (t : Nat) (a : Act) :
    (fun u => view u (evs ++ [(t, a)])) = upd (fun u => view u evs) t (alone (view t evs) a) := by
  funext u
  simp only [view, only, upd, List.filter_append, List.map_append, List.foldl_append]
  by_cases e : u = t
  · subst e; simp
  · have e' : t ≠ u := fun x => e x.symm
    simp [e, e']

theorem inv_run (evs : List (Nat × Act)) : Inv (run evs) (fun t => view t evs) := by
  rw [← List.reverse_reverse evs]
  generalize evs.reverse = l
  induction l with
  | nil => exact ⟨fun _ => rfl, fun _ => trivial, fun _ _ h => (by cases h), fun _ => List.nodup_nil,
      fun _ _ _ _ h => (by cases h), fun _ => rfl, fun _ => rfl⟩
  | cons e l ih =>
    obtain ⟨t, a⟩ := e
    rw [List.reverse_cons, view_concat]
    have : run (l.reverse ++ [(t, a)]) = step (run l.reverse) (t, a) := by simp [run, List.foldl_append]
    rw [this]
    exact inv_step ih t a

/-- C81: in every interleaving of the threads, with lookups nested in any way, the lookups of a thread find what
they would find if the thread were alone: each the last object compiled on that thread during it and outside of the
lookups nested in it. -/
theorem C81_own_objects (evs : List (Nat × Act)) (t : Nat) :
    ((run evs).captured.filter (·.1 = t)).map (·.2) = (view t evs).2 := (inv_run evs).out t

/-- C81: the pointer of a thread is null or points to the slot of a lookup of this thread that is going on; when none
is, it is null, so nothing is written to the memory of a lookup that has ended. -/
theorem C81_no_dangling (evs : List (Nat × Act)) (t : Nat) :
    (∀ n, (run evs).cell t = some n → ∃ p, (n, p) ∈ (run evs).guards t) ∧
    ((view t evs).1 = [] → (run evs).cell t = none) := by
  have h := inv_run evs
  constructor
  · intro n hn
    rw [h.cell t] at hn
    cases hg : (run evs).guards t with
    | nil => rw [hg] at hn; cases hn
    | cons g r =>
      rw [hg] at hn
      simp only [List.head?_cons, Option.map_some, Option.some.injEq] at hn
      exact ⟨g.2, by rw [← hn]; exact List.mem_cons_self⟩
  · intro hv
    have := h.vals t
    simp only [hv] at this
    rw [List.map_eq_nil_iff, List.map_eq_nil_iff] at this
    rw [h.cell t, this]; rfl

/-- Two threads; the first compiles two objects around a nested lookup that compiles one. -/
def exEvs : List (Nat × Act) :=
  [(1, .begin), (1, .object [1]), (2, .begin), (1, .begin), (2, .object [9]), (1, .object [2]), (1, .finish),
    (2, .finish), (2, .object [8]), (1, .finish)]

example : (run exEvs).captured = [(1, some [1]), (2, some [9]), (1, some [2])] ∧
    (view 1 exEvs).2 = [some [1], some [2]] ∧ (run exEvs).cell 1 = none ∧ (run (exEvs.take 7)).cell 1 = some 0 := by
  decide

end Verif.ObjCapture
