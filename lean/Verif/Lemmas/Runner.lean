import Verif.Spec.Runner
/-!
# Lemmas: the state-test runner
-/

namespace Verif.Runner

open Spec

variable {B H : Type} [DecidableEq B] [DecidableEq H]

theorem checkExecution_iff (t : Case H) (out : Option B) (e : Exec B H) :
    checkExecution t out e = .ok () ↔ Passes out t e := by
  unfold checkExecution validateException Passes
  cases t.expectException <;> cases hk : e.ok <;> simp only [Bool.false_eq_true, false_and, and_false, false_or, or_false,
    true_and, if_true, reduceCtorEq, and_true, true_or]
  unfold validateOutput
  cases out with
  | none =>
    dsimp only
    by_cases h1 : e.logsRoot = t.logs <;> by_cases h2 : e.stateRoot = t.hash <;> simp [h1, h2]
  | some x =>
    cases e.output with
    | none =>
      dsimp only
      by_cases h1 : e.logsRoot = t.logs <;> by_cases h2 : e.stateRoot = t.hash <;> simp [h1, h2]
    | some y =>
      dsimp only
      by_cases h0 : x = y <;> by_cases h1 : e.logsRoot = t.logs <;> by_cases h2 : e.stateRoot = t.hash <;>
        simp [h0, h1, h2]

theorem runTests_iff (exec : Case H → Exec B H) (out : Option B) (ts : List (Case H)) :
    runTests exec out ts = .ok ↔ ∀ t ∈ ts, Fulfilled out exec t := by
  induction ts with
  | nil => simp [runTests]
  | cons t ts ih =>
    simp only [runTests, List.forall_mem_cons, ← ih]
    unfold Fulfilled
    cases t.txOk with
    | false =>
      simp only [Bool.not_false, if_true, Bool.false_eq_true, if_false]
      cases t.expectException <;> simp
    | true =>
      simp only [Bool.not_true, Bool.false_eq_true, if_false, if_true, ← checkExecution_iff]
      cases checkExecution t out (exec t) <;> simp

theorem runPosts_iff (exec : Nat → Case H → Exec B H) (out : Option B) (ps : List (Post H)) :
    runPosts exec out ps = .ok ↔
      ∀ p ∈ ps, p.constantinople = false → ∀ t ∈ p.tests, Fulfilled out (exec p.fork) t := by
  induction ps with
  | nil => simp [runPosts]
  | cons p ps ih =>
    simp only [runPosts, List.forall_mem_cons, ← ih]
    cases p.constantinople with
    | true => simp
    | false =>
      simp only [Bool.false_eq_true, if_false, ← runTests_iff, true_implies]
      cases runTests (exec p.fork) out p.tests <;> simp

theorem runUnits_iff (exec : TUnit B H → Nat → Case H → Exec B H) (us : List (TUnit B H)) :
    runUnits exec us = .ok ↔ SuitePasses us exec := by
  unfold SuitePasses
  induction us with
  | nil => simp [runUnits]
  | cons u us ih =>
    rw [runUnits, List.forall_mem_cons, ← ih, ← runPosts_iff]
    cases runPosts (exec u) u.out u.post <;> simp

/-- The number of files with this kind of failure. -/
def errs (result : Nat → Outcome) (l : List Nat) : Nat :=
  (l.filter fun i => match result i with | .err _ => true | _ => false).length

theorem errs_pos {result : Nat → Outcome} {l : List Nat} {i : Nat} {k : Kind} (hi : i ∈ l) (hr : result i = .err k) :
    0 < errs result l :=
  List.length_pos_of_mem (List.mem_filter.2 ⟨hi, by rw [hr]⟩)

structure Inv (keep : Bool) (result : Nat → Outcome) (n k : Nat) (s : Run) : Prop where
  files : s.files = n
  threads : s.threads.length = k
  bound : s.idx ≤ n
  nodup : s.done.Nodup
  below : ∀ i ∈ s.done, i < s.idx
  run : ∀ (t i : Nat), s.threads[t]? = some (Thread.running i) → i < s.idx ∧ i ∉ s.done
  apart : ∀ (t u i : Nat), s.threads[t]? = some (Thread.running i) → s.threads[u]? = some (Thread.running i) → t = u
  cover : ∀ i < s.idx, i ∈ s.done ∨ ∃ t : Nat, s.threads[t]? = some (Thread.running i)
  errors : s.nErrors = errs result s.done
  panicked : ∀ i ∈ s.done, result i = .panic →
    ∃ t : Nat, s.threads[t]? = some (Thread.returned .panic) ∨ s.threads[t]? = some (Thread.waiting .panic)
  threadPanic : ∀ t : Nat, (s.threads[t]? = some (Thread.returned .panic) ∨ s.threads[t]? = some (Thread.waiting .panic)) →
    ∃ i ∈ s.done, result i = .panic
  threadErr : ∀ t : Nat, (s.threads[t]? = some (Thread.returned .err) ∨ s.threads[t]? = some (Thread.waiting .err)) →
    keep = false ∧ 0 < s.nErrors
  stopped : s.stop = true → ∃ t : Nat, s.threads[t]? = some (Thread.waiting .panic) ∨
    (keep = false ∧ s.threads[t]? = some (Thread.waiting .err))
  left : ∀ t : Nat, (s.threads[t]? = some (Thread.returned .ok) ∨ s.threads[t]? = some (Thread.waiting .ok)) →
    s.idx = n ∨ s.stop = true ∨ (keep = false ∧ 0 < s.nErrors)

theorem get_set {l : List Thread} {t u : Nat} {x y : Thread} {w : Thread} (hw : l[t]? = some w)
    (h : (l.set t x)[u]? = some y) : (u = t ∧ y = x) ∨ (u ≠ t ∧ l[u]? = some y) := by
  rw [List.getElem?_set] at h
  have hlt : t < l.length := (List.getElem?_eq_some_iff.1 hw).1
  by_cases e : t = u
  · subst e
    simp only [if_true, hlt] at h
    exact .inl ⟨rfl, (Option.some.inj h).symm⟩
  · simp only [e, if_false] at h
    exact .inr ⟨fun e' => e e'.symm, h⟩

theorem get_set_self {l : List Thread} {t : Nat} {x w : Thread} (hw : l[t]? = some w) : (l.set t x)[t]? = some x := by
  have hlt : t < l.length := (List.getElem?_eq_some_iff.1 hw).1
  rw [List.getElem?_set_self hlt]

theorem get_set_ne {l : List Thread} {t u : Nat} {x : Thread} (h : u ≠ t) : (l.set t x)[u]? = l[u]? :=
  List.getElem?_set_ne (Ne.symm h)

theorem inv_start (keep : Bool) (result : Nat → Outcome) (n k : Nat) : Inv keep result n k (start n k) := by
  have h : ∀ (t : Nat) (x : Thread), (List.replicate k Thread.top)[t]? = some x → x = .top := by
    intro t x hx
    exact List.eq_of_mem_replicate (List.mem_of_getElem? hx)
  constructor
  case files => rfl
  case threads => simp [start]
  case bound => exact Nat.zero_le _
  case nodup => exact List.nodup_nil
  case below => intro i hi; cases hi
  case run => intro t i hi; cases h t _ hi
  case apart => intro t u i hi; cases h t _ hi
  case cover => intro i hi; exact absurd hi (Nat.not_lt_zero i)
  case errors => rfl
  case panicked => intro i hi; cases hi
  case threadPanic => rintro t (hi | hi) <;> cases h t _ hi
  case threadErr => rintro t (hi | hi) <;> cases h t _ hi
  case stopped => intro hi; cases hi
  case left => rintro t (hi | hi) <;> cases h t _ hi

/-- A step that changes one thread between states other than running a file, and nothing else but `stop`. -/
theorem Inv.move {keep : Bool} {result : Nat → Outcome} {n k : Nat} {s : Run} (h : Inv keep result n k s) {t : Nat}
    {w x : Thread} (stop : Bool) (hw : s.threads[t]? = some w) (hwr : ∀ i, w ≠ .running i) (hxr : ∀ i, x ≠ .running i)
    (hwp : w ≠ .waiting .panic) (hwe : w ≠ .waiting .err)
    (hkp : w = .returned .panic → x = .waiting .panic)
    (hpx : (x = .returned .panic ∨ x = .waiting .panic) → w = .returned .panic)
    (hex : (x = .returned .err ∨ x = .waiting .err) → w = .returned .err)
    (hstop : s.stop = true → stop = true)
    (hstop' : stop = true → s.stop = true ∨ x = .waiting .panic ∨ (keep = false ∧ x = .waiting .err))
    (hok : (x = .returned .ok ∨ x = .waiting .ok) →
      w = .returned .ok ∨ s.idx = n ∨ s.stop = true ∨ (keep = false ∧ 0 < s.nErrors)) :
    Inv keep result n k { s with stop, threads := s.threads.set t x } := by
  have hs : ∀ {u : Nat} {y : Thread}, (s.threads.set t x)[u]? = some y →
      (u = t ∧ y = x) ∨ (u ≠ t ∧ s.threads[u]? = some y) := fun hu => get_set hw hu
  have hkeep : ∀ {u : Nat} {y : Thread}, s.threads[u]? = some y → y ≠ w → (s.threads.set t x)[u]? = some y := by
    intro u y hu hy
    rw [get_set_ne]; exact hu
    intro e; subst e; rw [hw] at hu; exact hy (Option.some.inj hu).symm
  refine ⟨h.files, by simpa using h.threads, h.bound, h.nodup, h.below, ?_, ?_, ?_, h.errors, ?_, ?_, ?_, ?_, ?_⟩
  · intro u i hu
    rcases hs hu with ⟨_, e⟩ | ⟨_, hu⟩
    · exact absurd e.symm (hxr i)
    · exact h.run u i hu
  · intro u v i hu hv
    rcases hs hu with ⟨_, e⟩ | ⟨_, hu⟩
    · exact absurd e.symm (hxr i)
    · rcases hs hv with ⟨_, e⟩ | ⟨_, hv⟩
      · exact absurd e.symm (hxr i)
      · exact h.apart u v i hu hv
  · intro i hi
    rcases h.cover i hi with hd | ⟨u, hu⟩
    · exact .inl hd
    · exact .inr ⟨u, hkeep hu (fun e => hwr i e.symm)⟩
  · intro i hi hp
    obtain ⟨u, hu⟩ := h.panicked i hi hp
    rcases hu with hu | hu
    · by_cases e : u = t
      · subst e
        rw [hw] at hu
        have := hkp (Option.some.inj hu)
        subst this
        exact ⟨u, .inr (get_set_self hw)⟩
      · exact ⟨u, .inl (by rw [get_set_ne e]; exact hu)⟩
    · exact ⟨u, .inr (hkeep hu fun e => hwp e.symm)⟩
  · intro u hu
    have : s.threads[u]? = some (Thread.returned .panic) ∨ s.threads[u]? = some (Thread.waiting .panic) := by
      rcases hu with hu | hu <;> rcases hs hu with ⟨rfl, e⟩ | ⟨_, hu⟩
      · exact .inl (by rw [hw, hpx (.inl e.symm)])
      · exact .inl hu
      · exact .inl (by rw [hw, hpx (.inr e.symm)])
      · exact .inr hu
    exact h.threadPanic u this
  · intro u hu
    have : s.threads[u]? = some (Thread.returned .err) ∨ s.threads[u]? = some (Thread.waiting .err) := by
      rcases hu with hu | hu <;> rcases hs hu with ⟨rfl, e⟩ | ⟨_, hu⟩
      · exact .inl (by rw [hw, hex (.inl e.symm)])
      · exact .inl hu
      · exact .inl (by rw [hw, hex (.inr e.symm)])
      · exact .inr hu
    exact h.threadErr u this
  · intro hst
    rcases hstop' hst with hst | rfl | ⟨hk, rfl⟩
    · obtain ⟨u, hu⟩ := h.stopped hst
      rcases hu with hu | ⟨hk, hu⟩
      · exact ⟨u, .inl (hkeep hu fun e => hwp e.symm)⟩
      · exact ⟨u, .inr ⟨hk, hkeep hu fun e => hwe e.symm⟩⟩
    · exact ⟨t, .inl (get_set_self hw)⟩
    · exact ⟨t, .inr ⟨hk, get_set_self hw⟩⟩
  · intro u hu
    have lift : (s.idx = n ∨ s.stop = true ∨ (keep = false ∧ 0 < s.nErrors)) →
        s.idx = n ∨ stop = true ∨ (keep = false ∧ 0 < s.nErrors) := by
      rintro (h | h | h)
      · exact .inl h
      · exact .inr (.inl (hstop h))
      · exact .inr (.inr h)
    have new : (x = .returned .ok ∨ x = .waiting .ok) → s.idx = n ∨ stop = true ∨ (keep = false ∧ 0 < s.nErrors) := by
      intro hx
      rcases hok hx with e | hx
      · exact lift (h.left t (.inl (by rw [hw, e])))
      · exact lift hx
    rcases hu with hu | hu <;> rcases hs hu with ⟨_, e⟩ | ⟨_, hu⟩
    · exact new (.inl e.symm)
    · exact lift (h.left u (.inl hu))
    · exact new (.inr e.symm)
    · exact lift (h.left u (.inr hu))

/-- A step that ends the running of a file. -/
theorem Inv.finish {keep : Bool} {result : Nat → Outcome} {n k : Nat} {s : Run} (h : Inv keep result n k s) {t i : Nat}
    {x : Thread} {ne : Nat} (hw : s.threads[t]? = some (Thread.running i)) (hxr : ∀ j, x ≠ .running j)
    (hne : ne = errs result (i :: s.done)) (hxw : ∀ r, x ≠ .waiting r) (hxo : x ≠ .returned .ok)
    (hp : result i = .panic ↔ x = .returned .panic)
    (he : x = .returned .err → keep = false ∧ 0 < ne) :
    Inv keep result n k { s with nErrors := ne, threads := s.threads.set t x, done := i :: s.done } := by
  have hs : ∀ {u : Nat} {y : Thread}, (s.threads.set t x)[u]? = some y →
      (u = t ∧ y = x) ∨ (u ≠ t ∧ s.threads[u]? = some y) := fun hu => get_set hw hu
  have hkeep : ∀ {u : Nat} {y : Thread}, s.threads[u]? = some y → y ≠ .running i → (s.threads.set t x)[u]? = some y := by
    intro u y hu hy
    rw [get_set_ne]; exact hu
    intro e; subst e; rw [hw] at hu; exact hy (Option.some.inj hu).symm
  have hle : s.nErrors ≤ ne := by
    rw [hne, h.errors]
    unfold errs
    rw [List.filter_cons]
    split <;> simp
  refine ⟨h.files, by simpa using h.threads, h.bound, ?_, ?_, ?_, ?_, ?_, hne, ?_, ?_, ?_, ?_, ?_⟩
  · exact List.nodup_cons.2 ⟨(h.run t i hw).2, h.nodup⟩
  · intro j hj
    rcases List.mem_cons.1 hj with rfl | hj
    · exact (h.run t _ hw).1
    · exact h.below j hj
  · intro u j hu
    rcases hs hu with ⟨_, e⟩ | ⟨hut, hv⟩
    · exact absurd e.symm (hxr j)
    · refine ⟨(h.run u j hv).1, fun hm => ?_⟩
      rcases List.mem_cons.1 hm with rfl | hm
      · exact hut (h.apart u t _ hv hw)
      · exact (h.run u j hv).2 hm
  · intro u v j hu hv
    rcases hs hu with ⟨_, e⟩ | ⟨_, hu⟩
    · exact absurd e.symm (hxr j)
    · rcases hs hv with ⟨_, e⟩ | ⟨_, hv⟩
      · exact absurd e.symm (hxr j)
      · exact h.apart u v j hu hv
  · intro j hj
    rcases h.cover j hj with hd | ⟨u, hu⟩
    · exact .inl (List.mem_cons_of_mem _ hd)
    · by_cases e : j = i
      · subst e; exact .inl List.mem_cons_self
      · exact .inr ⟨u, hkeep hu (by intro e'; injection e' with e'; exact e e')⟩
  · intro j hj hpj
    rcases List.mem_cons.1 hj with rfl | hj
    · exact ⟨t, .inl (by rw [get_set_self hw, hp.1 hpj])⟩
    · obtain ⟨u, hu⟩ := h.panicked j hj hpj
      rcases hu with hu | hu
      · exact ⟨u, .inl (hkeep hu (by simp))⟩
      · exact ⟨u, .inr (hkeep hu (by simp))⟩
  · intro u hu
    rcases hu with hu | hu <;> rcases hs hu with ⟨_, e⟩ | ⟨_, hu⟩
    · exact ⟨i, List.mem_cons_self, hp.2 e.symm⟩
    · obtain ⟨j, hj, hpj⟩ := h.threadPanic u (.inl hu)
      exact ⟨j, List.mem_cons_of_mem _ hj, hpj⟩
    · exact absurd e.symm (hxw _)
    · obtain ⟨j, hj, hpj⟩ := h.threadPanic u (.inr hu)
      exact ⟨j, List.mem_cons_of_mem _ hj, hpj⟩
  · intro u hu
    rcases hu with hu | hu <;> rcases hs hu with ⟨_, e⟩ | ⟨_, hu⟩
    · exact he e.symm
    · exact ⟨(h.threadErr u (.inl hu)).1, Nat.lt_of_lt_of_le (h.threadErr u (.inl hu)).2 hle⟩
    · exact absurd e.symm (hxw _)
    · exact ⟨(h.threadErr u (.inr hu)).1, Nat.lt_of_lt_of_le (h.threadErr u (.inr hu)).2 hle⟩
  · intro hst
    obtain ⟨u, hu⟩ := h.stopped hst
    rcases hu with hu | ⟨hk, hu⟩
    · exact ⟨u, .inl (hkeep hu (by simp))⟩
    · exact ⟨u, .inr ⟨hk, hkeep hu (by simp)⟩⟩
  · intro u hu
    have lift : (s.idx = n ∨ s.stop = true ∨ (keep = false ∧ 0 < s.nErrors)) →
        s.idx = n ∨ s.stop = true ∨ (keep = false ∧ 0 < ne) := by
      rintro (h | h | h)
      · exact .inl h
      · exact .inr (.inl h)
      · exact .inr (.inr ⟨h.1, Nat.lt_of_lt_of_le h.2 hle⟩)
    rcases hu with hu | hu <;> rcases hs hu with ⟨_, e⟩ | ⟨_, hu⟩
    · exact absurd e.symm hxo
    · exact lift (h.left u (.inl hu))
    · exact absurd e.symm (hxw _)
    · exact lift (h.left u (.inr hu))

theorem Inv.step {keep : Bool} {result : Nat → Outcome} {n k : Nat} {s : Run} (h : Inv keep result n k s) (op : Op) :
    Inv keep result n k (step keep result s op) := by
  cases op with
  | check t =>
    simp only [Runner.step]
    split
    case h_2 => exact h
    case h_1 hw =>
      split
      case isTrue hc =>
        refine h.move s.stop hw ?_ ?_ ?_ ?_ ?_ ?_ ?_ ?_ ?_ ?_ <;> try simp
        simp only [Bool.and_eq_true, Bool.not_eq_true', decide_eq_true_eq] at hc
        exact .inr (.inr ⟨hc.1, hc.2⟩)
      case isFalse hc =>
        refine h.move s.stop hw ?_ ?_ ?_ ?_ ?_ ?_ ?_ ?_ ?_ ?_ <;> simp
  | take t =>
    simp only [Runner.step]
    split
    case h_2 => exact h
    case h_1 hw =>
      split
      case isTrue hc =>
        have := h.move (x := .returned .ok) s.stop hw
        refine this ?_ ?_ ?_ ?_ ?_ ?_ ?_ ?_ ?_ ?_ <;> simp [hc]
      case isFalse hc =>
        split
        case isFalse hi =>
          refine h.move s.stop hw ?_ ?_ ?_ ?_ ?_ ?_ ?_ ?_ ?_ ?_ <;> try simp
          have := h.bound; have := h.files
          omega
        case isTrue hi =>
          have hs : ∀ {u : Nat} {y : Thread}, (s.threads.set t (.running s.idx))[u]? = some y →
              (u = t ∧ y = .running s.idx) ∨ (u ≠ t ∧ s.threads[u]? = some y) := fun hu => get_set hw hu
          have hkeep : ∀ {u : Nat} {y : Thread}, s.threads[u]? = some y → y ≠ .checked →
              (s.threads.set t (.running s.idx))[u]? = some y := by
            intro u y hu hy
            rw [get_set_ne]; exact hu
            intro e; subst e; rw [hw] at hu; exact hy (Option.some.inj hu).symm
          refine ⟨h.files, by simpa using h.threads, ?_, h.nodup, ?_, ?_, ?_, ?_, h.errors, ?_, ?_, ?_, ?_, ?_⟩
          · have := h.files; show s.idx + 1 ≤ n; omega
          · exact fun i hm => Nat.lt_succ_of_lt (h.below i hm)
          · intro u i hu
            rcases hs hu with ⟨_, e⟩ | ⟨_, hu⟩
            · injection e with e; subst e
              exact ⟨Nat.lt_succ_self _, fun hm => Nat.lt_irrefl _ (h.below _ hm)⟩
            · exact ⟨Nat.lt_succ_of_lt (h.run u i hu).1, (h.run u i hu).2⟩
          · intro u v i hu hv
            rcases hs hu with ⟨e1, e⟩ | ⟨_, hu⟩ <;> rcases hs hv with ⟨e2, e'⟩ | ⟨_, hv⟩
            · rw [e1, e2]
            · injection e with e; subst e
              exact absurd (h.run v _ hv).1 (Nat.lt_irrefl _)
            · injection e' with e'; subst e'
              exact absurd (h.run u _ hu).1 (Nat.lt_irrefl _)
            · exact h.apart u v i hu hv
          · intro i hlt
            rcases Nat.lt_succ_iff_lt_or_eq.1 hlt with hlt | rfl
            · rcases h.cover i hlt with hd | ⟨u, hu⟩
              · exact .inl hd
              · exact .inr ⟨u, hkeep hu (by simp)⟩
            · exact .inr ⟨t, get_set_self hw⟩
          · intro i hm hp
            obtain ⟨u, hu⟩ := h.panicked i hm hp
            rcases hu with hu | hu
            · exact ⟨u, .inl (hkeep hu (by simp))⟩
            · exact ⟨u, .inr (hkeep hu (by simp))⟩
          · intro u hu
            rcases hu with hu | hu <;> rcases hs hu with ⟨_, e⟩ | ⟨_, hu⟩
            · cases e
            · exact h.threadPanic u (.inl hu)
            · cases e
            · exact h.threadPanic u (.inr hu)
          · intro u hu
            rcases hu with hu | hu <;> rcases hs hu with ⟨_, e⟩ | ⟨_, hu⟩
            · cases e
            · exact h.threadErr u (.inl hu)
            · cases e
            · exact h.threadErr u (.inr hu)
          · intro hst
            exact absurd hst hc
          · intro u hu
            have : s.idx = n → False := by have := h.files; omega
            rcases hu with hu | hu <;> rcases hs hu with ⟨_, e⟩ | ⟨_, hu⟩
            · cases e
            · rcases h.left u (.inl hu) with h1 | h1
              · exact (this h1).elim
              · exact .inr h1
            · cases e
            · rcases h.left u (.inr hu) with h1 | h1
              · exact (this h1).elim
              · exact .inr h1
  | exec t =>
    simp only [Runner.step]
    split
    case h_2 => exact h
    case h_1 i hw =>
      cases hr : result i with
      | ok =>
        refine h.finish hw (by simp) ?_ (by simp) (by simp) (by simp [hr]) (by simp)
        rw [h.errors]; unfold errs; rw [List.filter_cons]; simp [hr]
      | err kd =>
        have hn : s.nErrors + 1 = errs result (i :: s.done) := by
          rw [h.errors]; unfold errs; rw [List.filter_cons]; simp [hr]
        dsimp only
        cases keep with
        | true => exact h.finish hw (by simp) hn (by simp) (by simp) (by simp [hr]) (by simp)
        | false => exact h.finish hw (by simp) hn (by simp) (by simp) (by simp [hr]) (by simp)
      | panic =>
        refine h.finish hw (by simp) ?_ (by simp) (by simp) (by simp [hr]) (by simp)
        rw [h.errors]; unfold errs; rw [List.filter_cons]; simp [hr]
  | settle t =>
    simp only [Runner.step]
    split
    case h_2 => exact h
    case h_1 r hw =>
      refine h.move _ hw ?_ ?_ ?_ ?_ ?_ ?_ ?_ ?_ ?_ ?_ <;> try simp
      · intro hs; simp [hs]
      · intro hs
        rcases hs with (hs | hs) | ⟨hk, hs⟩
        · exact .inl hs
        · exact .inr (.inl hs)
        · exact .inr (.inr ⟨hk, hs⟩)
      · intro e; exact .inl e

theorem inv_run (keep : Bool) (result : Nat → Outcome) (n k : Nat) (ops : List Op) {s : Run}
    (h : Inv keep result n k s) : Inv keep result n k (run keep result s ops) := by
  induction ops generalizing s with
  | nil => exact h
  | cons op ops ih => exact ih (h.step op)

theorem finished_get {s : Run} (h : finished s = true) {t : Nat} {x : Thread} (hx : s.threads[t]? = some x) :
    ∃ r, x = .waiting r := by
  have := List.all_eq_true.1 h x (List.mem_of_getElem? hx)
  cases x <;> simp at this
  exact ⟨_, rfl⟩

theorem verdict_iff (s : Run) : verdict s = true ↔ s.nErrors = 0 ∧ ∀ (t : Nat) (x : Thread), s.threads[t]? = some x → x = .waiting .ok := by
  unfold verdict
  simp only [Bool.and_eq_true, beq_iff_eq, List.length_eq_zero_iff, List.filter_eq_nil_iff]
  constructor
  · rintro ⟨h1, h2⟩
    refine ⟨h1, fun t x hx => ?_⟩
    have := h2 x (List.mem_of_getElem? hx)
    split at this
    · rfl
    · simp at this
  · rintro ⟨h1, h2⟩
    refine ⟨h1, fun x hx => ?_⟩
    obtain ⟨t, ht⟩ := List.getElem?_of_mem hx
    rw [h2 t x ht]
    simp

theorem numThreads_pos {single : Bool} {par : Option Nat} {n : Nat} (hp : par ≠ some 0) (hn : 0 < n) :
    0 < numThreads single par n := by
  unfold numThreads
  cases single with
  | true => simp
  | false =>
    cases par with
    | none => simp
    | some p =>
      have : p ≠ 0 := fun e => hp (by rw [e])
      simp only [Bool.false_eq_true, if_false]
      omega

/-- How far a thread is from its end. -/
def Thread.weight : Thread → Nat
  | .top => 3
  | .checked => 2
  | .running _ => 4
  | .returned _ => 1
  | .waiting _ => 0

theorem sum_set {l : List Thread} {t : Nat} {w : Thread} (x : Thread) (hw : l[t]? = some w) :
    ((l.set t x).map Thread.weight).sum + w.weight = (l.map Thread.weight).sum + x.weight := by
  induction l generalizing t with
  | nil => simp at hw
  | cons y l ih =>
    cases t with
    | zero =>
      simp only [List.getElem?_cons_zero, Option.some.injEq] at hw
      subst hw
      simp only [List.set_cons_zero, List.map_cons, List.sum_cons]
      omega
    | succ t =>
      simp only [List.getElem?_cons_succ] at hw
      have := ih hw
      simp only [List.set_cons_succ, List.map_cons, List.sum_cons]
      omega

/-- The steps left. -/
def Run.left (s : Run) : Nat := 4 * (s.files - s.idx) + (s.threads.map Thread.weight).sum

theorem step_left (keep : Bool) (result : Nat → Outcome) (s : Run) (op : Op) (h : step keep result s op ≠ s) :
    (step keep result s op).left < s.left := by
  unfold Run.left
  cases op with
  | check t =>
    cases hw : s.threads[t]? with
    | none => exact absurd (by simp only [step, hw]) h
    | some w =>
      cases w with
      | top =>
        simp only [step, hw]
        have h1 := sum_set (.returned .ok) hw
        have h2 := sum_set .checked hw
        simp only [Thread.weight] at h1 h2
        split <;> dsimp only <;> omega
      | _ => exact absurd (by simp only [step, hw]) h
  | take t =>
    cases hw : s.threads[t]? with
    | none => exact absurd (by simp only [step, hw]) h
    | some w =>
      cases w with
      | checked =>
        simp only [step, hw]
        have h1 := sum_set (.returned .ok) hw
        have h2 := sum_set (.running s.idx) hw
        simp only [Thread.weight] at h1 h2
        repeat' split
        all_goals dsimp only; omega
      | _ => exact absurd (by simp only [step, hw]) h
  | exec t =>
    cases hw : s.threads[t]? with
    | none => exact absurd (by simp only [step, hw]) h
    | some w =>
      cases w with
      | running i =>
        simp only [step, hw]
        have h1 := sum_set .top hw
        have h2 := sum_set (.returned .panic) hw
        have h3 := sum_set (.returned .err) hw
        simp only [Thread.weight] at h1 h2 h3
        cases result i with
        | ok => dsimp only; omega
        | panic => dsimp only; omega
        | err => cases keep <;> simp only [Bool.false_eq_true, if_true, if_false] <;> omega
      | _ => exact absurd (by simp only [step, hw]) h
  | settle t =>
    cases hw : s.threads[t]? with
    | none => exact absurd (by simp only [step, hw]) h
    | some w =>
      cases w with
      | returned r =>
        simp only [step, hw]
        have h1 := sum_set (.waiting r) hw
        simp only [Thread.weight] at h1
        omega
      | _ => exact absurd (by simp only [step, hw]) h

theorem step_moves (keep : Bool) (result : Nat → Outcome) (s : Run) (h : finished s = false) :
    ∃ op, step keep result s op ≠ s := by
  have : ∃ x ∈ s.threads, ∀ r, x ≠ .waiting r := by
    unfold finished at h
    rw [List.all_eq_false] at h
    obtain ⟨x, hx, hn⟩ := h
    refine ⟨x, hx, fun r e => ?_⟩
    subst e
    simp at hn
  obtain ⟨x, hx, hn⟩ := this
  obtain ⟨t, ht⟩ := List.getElem?_of_mem hx
  have hset : ∀ y, y ≠ x → s.threads.set t y ≠ s.threads := by
    intro y hy e
    have h1 := get_set_self (x := y) ht
    rw [e, ht] at h1
    exact hy (Option.some.inj h1).symm
  cases x with
  | waiting r => exact absurd rfl (hn r)
  | top =>
    refine ⟨.check t, fun e => ?_⟩
    simp only [step, ht] at e
    split at e
    · exact hset _ (by simp) (congrArg Run.threads e)
    · exact hset _ (by simp) (congrArg Run.threads e)
  | checked =>
    refine ⟨.take t, fun e => ?_⟩
    simp only [step, ht] at e
    repeat' split at e
    all_goals exact hset _ (by simp) (congrArg Run.threads e)
  | running i =>
    refine ⟨.exec t, fun e => ?_⟩
    simp only [step, ht] at e
    cases hr : result i with
    | ok => rw [hr] at e; exact hset _ (by simp) (congrArg Run.threads e)
    | panic => rw [hr] at e; exact hset _ (by simp) (congrArg Run.threads e)
    | err k =>
      rw [hr] at e
      refine hset _ ?_ (congrArg Run.threads e)
      cases keep <;> simp
  | returned r =>
    refine ⟨.settle t, fun e => ?_⟩
    simp only [step, ht] at e
    exact hset _ (by simp) (congrArg Run.threads e)

end Verif.Runner
