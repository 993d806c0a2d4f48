import Verif.Lemmas.Workers
/-!
# Lemmas: the invariant of workers and handles
-/

namespace Verif.Workers
open Verif.Session

/-- A compiler or a handle keeps dylib `d`. -/
def Kept (p : Pool) (d : Nat) : Prop :=
  (∃ w s o, p.workers.get w = some s ∧ s.comp.orc = some o ∧ o.dylib = d) ∨
  (∃ h x, p.handles.get h = some x ∧ x.dylib = d)

/-- What holds between steps. `H`: what is held; `L`: LLVM never failed after adding a module; `ex`: dylibs
about to be released. -/
structure WInv (j0 : Jit) (H : Nat → Nat → Name → Code → Prop) (L : Prop) (ex : Nat → Prop) (p : Pool) : Prop where
  jit : p.jit.Ok
  dylibs : j0.nextDylib ≤ p.jit.nextDylib
  trackers : j0.nextTracker ≤ p.jit.nextTracker
  wNd : p.workers.Nodup
  hNd : p.handles.Nodup
  idle : ∀ w s, p.workers.get w = some s → Idle s.comp
  wDylib : ∀ w s o, p.workers.get w = some s → s.comp.orc = some o →
    j0.nextDylib ≤ o.dylib ∧ o.dylib < p.jit.nextDylib
  wApart : ∀ w s o w' s' o', p.workers.get w = some s → s.comp.orc = some o → p.workers.get w' = some s' →
    s'.comp.orc = some o' → o.dylib = o'.dylib → w = w'
  hLt : ∀ h x, p.handles.get h = some x → h < p.next ∧ j0.nextTracker ≤ x.tracker ∧ x.tracker < p.jit.nextTracker ∧
    j0.nextDylib ≤ x.dylib ∧ x.dylib < p.jit.nextDylib
  hApart : ∀ h x h' x', p.handles.get h = some x → p.handles.get h' = some x' → x.tracker = x'.tracker → h = h'
  back : ∀ h x, p.handles.get h = some x → ∃ n code, H h x.addr n code
  held : ∀ h a n code, H h a n code → ∃ x, p.handles.get h = some x ∧ x.addr = a ∧
    ∃ s ∈ p.jit.syms, s.addr = a ∧ s.name = n ∧ s.code = code ∧ s.tracker = x.tracker ∧ s.dylib = x.dylib ∧
      ∀ s' ∈ p.jit.syms, s'.tracker = x.tracker → s' = s
  old : ∀ s ∈ j0.syms, s ∈ p.jit.syms
  owned : ∀ s ∈ p.jit.syms, s ∈ j0.syms ∨ (j0.nextDylib ≤ s.dylib ∧ (Kept p s.dylib ∨ ex s.dylib))
  clean : L → ∀ s ∈ p.jit.syms, s ∈ j0.syms ∨ ∃ h x, p.handles.get h = some x ∧ s.addr = x.addr

/-- No dylib to release. -/
def none' : Nat → Prop := fun _ => False

theorem kept_iff {p : Pool} (h1 : p.workers.Nodup) (h2 : p.handles.Nodup) (d : Nat) :
    kept p.workers p.handles d = true ↔ Kept p d := by
  rw [kept, Bool.or_eq_true, List.any_eq_true, List.any_eq_true]
  constructor
  · rintro (⟨⟨w, s⟩, hm, hk⟩ | ⟨⟨h, x⟩, hm, hk⟩)
    · cases ho : s.comp.orc with
      | none => simp [ho] at hk
      | some o =>
        simp [ho] at hk
        exact .inl ⟨w, s, o, AMap.get_of_mem h1 hm, ho, hk⟩
    · exact .inr ⟨h, x, AMap.get_of_mem h2 hm, by simpa using hk⟩
  · rintro (⟨w, s, o, hg, ho, hk⟩ | ⟨h, x, hg, hk⟩)
    · exact .inl ⟨(w, s), AMap.mem_of_get hg, by simp [ho, hk]⟩
    · exact .inr ⟨(h, x), AMap.mem_of_get hg, by simp [hk]⟩

theorem winv_start {j0 : Jit} (ok : j0.Ok) : WInv j0 (fun _ _ _ _ => False) True none' (start j0) where
  jit := ok
  dylibs := Nat.le_refl _
  trackers := Nat.le_refl _
  wNd := AMap.nodup_nil
  hNd := AMap.nodup_nil
  idle w s h := by cases h
  wDylib w s o h := by cases h
  wApart w s o w' s' o' h := by cases h
  hLt h x hh := by cases hh
  hApart h x h' x' hh := by cases hh
  back h x hh := by cases hh
  held h a n code hh := hh.elim
  old s hs := hs
  owned s hs := .inl hs
  clean _ s hs := .inl hs

theorem WInv.mono {j0 : Jit} {H H' : Nat → Nat → Name → Code → Prop} {L L' : Prop} {ex ex' : Nat → Prop} {p : Pool}
    (v : WInv j0 H L ex p) (h1 : ∀ h a n code, H h a n code ↔ H' h a n code) (h2 : L' → L)
    (h3 : ∀ d, ex d → ex' d) : WInv j0 H' L' ex' p :=
  { v with
    back := fun h x hh => by
      obtain ⟨n, code, k⟩ := v.back h x hh
      exact ⟨n, code, (h1 _ _ _ _).mp k⟩
    held := fun h a n code hh => v.held h a n code ((h1 _ _ _ _).mpr hh)
    owned := fun s hs => (v.owned s hs).imp id fun ⟨k1, k2⟩ => ⟨k1, k2.imp id (h3 _)⟩
    clean := fun hl => v.clean (h2 hl) }

/-- Counters may grow. -/
theorem WInv.bump {j0 : Jit} {H : Nat → Nat → Name → Code → Prop} {L : Prop} {ex : Nat → Prop} {p : Pool}
    (v : WInv j0 H L ex p) {j' : Jit} (hs : j'.syms = p.jit.syms) (h1 : p.jit.nextDylib ≤ j'.nextDylib)
    (h2 : p.jit.nextTracker ≤ j'.nextTracker) (h3 : p.jit.nextAddr ≤ j'.nextAddr) :
    WInv j0 H L ex { p with jit := j' } :=
  { v with
    jit := ⟨fun s h => by rw [hs] at h; exact Nat.lt_of_lt_of_le (v.jit.dylib s h) h1,
      fun s h => by rw [hs] at h; exact Nat.lt_of_lt_of_le (v.jit.tracker s h) h2,
      fun s h => by rw [hs] at h; exact Nat.lt_of_lt_of_le (v.jit.addr s h) h3, by rw [hs]; exact v.jit.addrs⟩
    dylibs := Nat.le_trans v.dylibs h1
    trackers := Nat.le_trans v.trackers h2
    wDylib := fun w s o hw ho => by
      obtain ⟨k1, k2⟩ := v.wDylib w s o hw ho
      exact ⟨k1, Nat.lt_of_lt_of_le k2 h1⟩
    hLt := fun h x hh => by
      obtain ⟨k1, k2, k3, k4, k5⟩ := v.hLt h x hh
      exact ⟨k1, k2, Nat.lt_of_lt_of_le k3 h2, k4, Nat.lt_of_lt_of_le k5 h1⟩
    held := fun h a n code hh => by
      obtain ⟨x, k1, k2, s, k3, k4⟩ := v.held h a n code hh
      exact ⟨x, k1, k2, s, hs ▸ k3, k4.1, k4.2.1, k4.2.2.1, k4.2.2.2.1, k4.2.2.2.2.1,
        fun s' h' => k4.2.2.2.2.2 s' (hs ▸ h')⟩
    old := fun s h => hs ▸ v.old s h
    owned := fun s h => v.owned s (hs ▸ h)
    clean := fun hl s h => v.clean hl s (hs ▸ h) }

/-- A worker's compiler is replaced by one with the same dylib, or by one with a new dylib. -/
theorem WInv.setWorker {j0 : Jit} {H : Nat → Nat → Name → Code → Prop} {L : Prop} {ex : Nat → Prop} {p : Pool}
    (v : WInv j0 H L ex p) {w : Nat} {s' : Worker} (hi : Idle s'.comp)
    (h1 : ∀ o', s'.comp.orc = some o' →
      (∃ s o, p.workers.get w = some s ∧ s.comp.orc = some o ∧ o.dylib = o'.dylib) ∨
      (j0.nextDylib ≤ o'.dylib ∧ o'.dylib < p.jit.nextDylib ∧
        ∀ w2 s2 o2, p.workers.get w2 = some s2 → s2.comp.orc = some o2 → o2.dylib ≠ o'.dylib))
    (h2 : ∀ s o, p.workers.get w = some s → s.comp.orc = some o → ∃ o', s'.comp.orc = some o' ∧ o'.dylib = o.dylib) :
    WInv j0 H L ex { p with workers := p.workers.insert w s' } := by
  have hget : ∀ w2, (p.workers.insert w s').get w2 = if w2 = w then some s' else p.workers.get w2 :=
    fun w2 => AMap.get_insert _ _ _ _
  have hfrom : ∀ o', s'.comp.orc = some o' → j0.nextDylib ≤ o'.dylib ∧ o'.dylib < p.jit.nextDylib := by
    intro o' ho'
    rcases h1 o' ho' with ⟨s, o, k1, k2, k3⟩ | ⟨k1, k2, _⟩
    · rw [← k3]; exact v.wDylib w s o k1 k2
    · exact ⟨k1, k2⟩
  have hap : ∀ o', s'.comp.orc = some o' → ∀ w2 s2 o2, w2 ≠ w → p.workers.get w2 = some s2 → s2.comp.orc = some o2 →
      o2.dylib ≠ o'.dylib := by
    intro o' ho' w2 s2 o2 hne k1 k2 k3
    rcases h1 o' ho' with ⟨s, o, k4, k5, k6⟩ | ⟨_, _, k4⟩
    · exact hne (v.wApart w2 s2 o2 w s o k1 k2 k4 k5 (k3.trans k6.symm))
    · exact k4 w2 s2 o2 k1 k2 k3
  exact { v with
    wNd := AMap.nodup_insert v.wNd _ _
    idle := fun w2 s2 hg => by
      rw [hget] at hg
      split at hg
      · cases hg; exact hi
      · exact v.idle w2 s2 hg
    wDylib := fun w2 s2 o2 hg ho => by
      rw [hget] at hg
      split at hg
      · cases hg; exact hfrom o2 ho
      · exact v.wDylib w2 s2 o2 hg ho
    wApart := fun w2 s2 o2 w3 s3 o3 hg ho hg' ho' he => by
      rw [hget] at hg hg'
      split at hg
      · rename_i e2
        cases hg
        split at hg'
        · rename_i e3
          rw [e2, e3]
        · rename_i e3
          exact absurd he.symm (hap o2 ho w3 s3 o3 e3 hg' ho')
      · rename_i e2
        split at hg'
        · cases hg'
          exact absurd he (hap o3 ho' w2 s2 o2 e2 hg ho)
        · exact v.wApart w2 s2 o2 w3 s3 o3 hg ho hg' ho' he
    owned := fun s hs => (v.owned s hs).imp id fun ⟨k1, k2⟩ => ⟨k1, k2.imp (fun k => by
      rcases k with ⟨w2, s2, o2, k3, k4, k5⟩ | k
      · left
        by_cases e : w2 = w
        · subst e
          obtain ⟨o', k6, k7⟩ := h2 s2 o2 k3 k4
          exact ⟨w2, s', o', by rw [hget, if_pos rfl], k6, k7.trans k5⟩
        · exact ⟨w2, s2, o2, by rw [hget, if_neg e]; exact k3, k4, k5⟩
      · exact .inr k) id⟩ }

/-- A compiler is dropped: its dylib is to be released. -/
theorem WInv.dropComp {j0 : Jit} {H : Nat → Nat → Name → Code → Prop} {L : Prop} {p : Pool}
    (v : WInv j0 H L none' p) {w : Nat} {s : Worker} {o : Orc} (hw : p.workers.get w = some s) (ho : s.comp.orc = some o)
    {ws : AMap Nat Worker} (hn : ws.Nodup) (hne : ∀ w2, w2 ≠ w → ws.get w2 = p.workers.get w2)
    (hnew : ∀ s', ws.get w = some s' → Idle s'.comp ∧ s'.comp.orc = none) :
    WInv j0 H L (· = o.dylib) { p with workers := ws } := by
  have hget : ∀ w2 s2 o2, ws.get w2 = some s2 → s2.comp.orc = some o2 → p.workers.get w2 = some s2 := by
    intro w2 s2 o2 h1 h2
    by_cases e : w2 = w
    · subst e
      rw [(hnew s2 h1).2] at h2
      cases h2
    · rw [← hne w2 e]; exact h1
  exact { v with
    wNd := hn
    idle := fun w2 s2 hg => by
      by_cases e : w2 = w
      · subst e; exact (hnew s2 hg).1
      · exact v.idle w2 s2 (by rw [← hne w2 e]; exact hg)
    wDylib := fun w2 s2 o2 hg ho => v.wDylib w2 s2 o2 (hget w2 s2 o2 hg ho) ho
    wApart := fun w2 s2 o2 w3 s3 o3 hg ho hg' ho' =>
      v.wApart w2 s2 o2 w3 s3 o3 (hget w2 s2 o2 hg ho) ho (hget w3 s3 o3 hg' ho') ho'
    owned := fun x hx => (v.owned x hx).imp id fun ⟨k1, k2⟩ => ⟨k1, by
      rcases k2 with (⟨w2, s2, o2, k3, k4, k5⟩ | k) | k
      · by_cases e : w2 = w
        · subst e
          rw [hw] at k3
          cases k3
          rw [ho] at k4
          cases k4
          exact .inr k5.symm
        · exact .inl (.inl ⟨w2, s2, o2, by rw [hne w2 e]; exact k3, k4, k5⟩)
      · exact .inl (.inr k)
      · exact k.elim⟩ }

/-- The same for a compiler without a dylib. -/
theorem WInv.dropBare {j0 : Jit} {H : Nat → Nat → Name → Code → Prop} {L : Prop} {p : Pool}
    (v : WInv j0 H L none' p) {w : Nat} (hw : ∀ s, p.workers.get w = some s → s.comp.orc = none)
    {ws : AMap Nat Worker} (hn : ws.Nodup) (hne : ∀ w2, w2 ≠ w → ws.get w2 = p.workers.get w2)
    (hnew : ∀ s', ws.get w = some s' → Idle s'.comp ∧ s'.comp.orc = none) :
    WInv j0 H L none' { p with workers := ws } := by
  have hget : ∀ w2 s2 o2, ws.get w2 = some s2 → s2.comp.orc = some o2 → p.workers.get w2 = some s2 := by
    intro w2 s2 o2 h1 h2
    by_cases e : w2 = w
    · subst e
      rw [(hnew s2 h1).2] at h2
      cases h2
    · rw [← hne w2 e]; exact h1
  exact { v with
    wNd := hn
    idle := fun w2 s2 hg => by
      by_cases e : w2 = w
      · subst e; exact (hnew s2 hg).1
      · exact v.idle w2 s2 (by rw [← hne w2 e]; exact hg)
    wDylib := fun w2 s2 o2 hg ho => v.wDylib w2 s2 o2 (hget w2 s2 o2 hg ho) ho
    wApart := fun w2 s2 o2 w3 s3 o3 hg ho hg' ho' =>
      v.wApart w2 s2 o2 w3 s3 o3 (hget w2 s2 o2 hg ho) ho (hget w3 s3 o3 hg' ho') ho'
    owned := fun x hx => (v.owned x hx).imp id fun ⟨k1, k2⟩ => ⟨k1, by
      rcases k2 with (⟨w2, s2, o2, k3, k4, k5⟩ | k) | k
      · by_cases e : w2 = w
        · subst e
          rw [hw s2 k3] at k4
          cases k4
        · exact .inl (.inl ⟨w2, s2, o2, by rw [hne w2 e]; exact k3, k4, k5⟩)
      · exact .inl (.inr k)
      · exact k.elim⟩ }

/-- Releasing a dylib. -/
theorem WInv.release {j0 : Jit} {H : Nat → Nat → Name → Code → Prop} {L : Prop} {p : Pool} {d : Nat}
    (ok : j0.Ok) (v : WInv j0 H L (· = d) p) (hd : j0.nextDylib ≤ d) :
    WInv j0 H L none' { p with jit := release p.jit p.workers p.handles d } := by
  rw [Workers.release]
  cases hk : kept p.workers p.handles d with
  | true =>
    simp only [if_true]
    have hk := (kept_iff v.wNd v.hNd d).mp hk
    exact { v with
      owned := fun s hs => (v.owned s hs).imp id fun ⟨k1, k2⟩ => ⟨k1, .inl (by
        rcases k2 with k2 | k2
        · exact k2
        · rw [k2]; exact hk)⟩ }
  | false =>
    simp only [Bool.false_eq_true, if_false]
    have hk : ¬ Kept p d := fun h => by rw [(kept_iff v.wNd v.hNd d).mpr h] at hk; cases hk
    exact { v with
      jit := v.jit.filter _
      held := fun h a n code hh => by
        obtain ⟨x, k1, k2, s, k3, k4, k5, k6, k7, k8, k9⟩ := v.held h a n code hh
        refine ⟨x, k1, k2, s, List.mem_filter.mpr ⟨k3, ?_⟩, k4, k5, k6, k7, k8, fun s' h' => k9 s' (List.mem_filter.mp h').1⟩
        simp only [bne_iff_ne, ne_eq]
        intro e
        exact hk (.inr ⟨h, x, k1, k8.symm.trans e⟩)
      old := fun s hs => List.mem_filter.mpr ⟨v.old s hs, by
        simp only [bne_iff_ne, ne_eq]
        have := ok.dylib s hs
        omega⟩
      owned := fun s hs => by
        obtain ⟨h1, h2⟩ := List.mem_filter.mp hs
        simp only [bne_iff_ne, ne_eq] at h2
        refine (v.owned s h1).imp id fun ⟨k1, k2⟩ => ⟨k1, .inl ?_⟩
        rcases k2 with k2 | k2
        · exact k2
        · exact absurd k2 h2
      clean := fun hl s hs => v.clean hl s (List.mem_filter.mp hs).1 }

/-- A loaded symbol. -/
theorem ok_add {j : Jit} (ok : j.Ok) {s : Sym} (hd : s.dylib < j.nextDylib) (ht : s.tracker = j.nextTracker)
    (ha : s.addr = j.nextAddr) :
    Jit.Ok { j with nextTracker := j.nextTracker + 1, nextAddr := j.nextAddr + 1, syms := j.syms ++ [s] } where
  dylib x hx := by
    rcases List.mem_append.mp hx with hx | hx
    · exact ok.dylib x hx
    · rw [List.mem_singleton.mp hx]; exact hd
  tracker x hx := by
    rcases List.mem_append.mp hx with hx | hx
    · exact Nat.lt_succ_of_lt (ok.tracker x hx)
    · rw [List.mem_singleton.mp hx, ht]; exact Nat.lt_succ_self _
  addr x hx := by
    rcases List.mem_append.mp hx with hx | hx
    · exact Nat.lt_succ_of_lt (ok.addr x hx)
    · rw [List.mem_singleton.mp hx, ha]; exact Nat.lt_succ_self _
  addrs := by
    rw [List.map_append, List.nodup_append]
    refine ⟨ok.addrs, by simp, ?_⟩
    intro a h1 b h2
    simp only [List.map_cons, List.map_nil, List.mem_singleton] at h2
    obtain ⟨x, hx, rfl⟩ := List.mem_map.mp h1
    have := ok.addr x hx
    omega

/-- A symbol is loaded that nobody got. -/
theorem WInv.leak {j0 : Jit} {H : Nat → Nat → Name → Code → Prop} {L : Prop} {ex : Nat → Prop} {p : Pool}
    (v : WInv j0 H L ex p) {s : Sym} (hb : j0.nextDylib ≤ s.dylib) (hd : s.dylib < p.jit.nextDylib)
    (ht : s.tracker = p.jit.nextTracker) (ha : s.addr = p.jit.nextAddr) (hk : Kept p s.dylib ∨ ex s.dylib) :
    WInv j0 H False ex { p with jit := { p.jit with
      nextTracker := p.jit.nextTracker + 1, nextAddr := p.jit.nextAddr + 1, syms := p.jit.syms ++ [s] } } :=
  { v with
    jit := ok_add v.jit hd ht ha
    trackers := Nat.le_succ_of_le v.trackers
    hLt := fun h x hh => by
      obtain ⟨k1, k2, k3, k4, k5⟩ := v.hLt h x hh
      exact ⟨k1, k2, Nat.lt_succ_of_lt k3, k4, k5⟩
    held := fun h a n code hh => by
      obtain ⟨x, k1, k2, s2, k3, k4, k5, k6, k7, k8, k9⟩ := v.held h a n code hh
      refine ⟨x, k1, k2, s2, List.mem_append_left _ k3, k4, k5, k6, k7, k8, fun s' h' e => ?_⟩
      rcases List.mem_append.mp h' with h' | h'
      · exact k9 s' h' e
      · rw [List.mem_singleton.mp h'] at e
        have := (v.hLt h x k1).2.2.1
        omega
    old := fun s hs => List.mem_append_left _ (v.old s hs)
    owned := fun x hx => by
      rcases List.mem_append.mp hx with hx | hx
      · exact v.owned x hx
      · rw [List.mem_singleton.mp hx]
        exact .inr ⟨hb, hk⟩
    clean := fun h => h.elim }

/-- A symbol is loaded and handed out. -/
theorem WInv.hand {j0 : Jit} {H : Nat → Nat → Name → Code → Prop} {L : Prop} {p : Pool}
    (v : WInv j0 H L none' p) {s : Sym} (hb : j0.nextDylib ≤ s.dylib) (hd : s.dylib < p.jit.nextDylib)
    (ht : s.tracker = p.jit.nextTracker) (ha : s.addr = p.jit.nextAddr) :
    WInv j0 (fun h a n code => (h = p.next ∧ a = s.addr ∧ n = s.name ∧ code = s.code) ∨ H h a n code) L none'
      { p with
        jit := { p.jit with
          nextTracker := p.jit.nextTracker + 1, nextAddr := p.jit.nextAddr + 1, syms := p.jit.syms ++ [s] }
        handles := p.handles.insert p.next ⟨s.addr, s.tracker, s.dylib⟩
        next := p.next + 1 } := by
  have hget : ∀ h, (p.handles.insert p.next ⟨s.addr, s.tracker, s.dylib⟩).get h =
      if h = p.next then some ⟨s.addr, s.tracker, s.dylib⟩ else p.handles.get h := fun h => AMap.get_insert _ _ _ _
  have hold : ∀ h x, p.handles.get h = some x → h ≠ p.next := by
    intro h x hh e
    have := (v.hLt h x hh).1
    omega
  exact { v with
    jit := ok_add v.jit hd ht ha
    trackers := Nat.le_succ_of_le v.trackers
    hNd := AMap.nodup_insert v.hNd _ _
    hLt := fun h x hh => by
      rw [hget] at hh
      split at hh
      · rename_i e
        cases hh
        refine ⟨by rw [e]; exact Nat.lt_succ_self _, ?_, ?_, hb, hd⟩
        · show j0.nextTracker ≤ s.tracker
          have := v.trackers
          omega
        · show s.tracker < p.jit.nextTracker + 1
          omega
      · obtain ⟨k1, k2, k3, k4, k5⟩ := v.hLt h x hh
        exact ⟨Nat.lt_succ_of_lt k1, k2, Nat.lt_succ_of_lt k3, k4, k5⟩
    hApart := fun h x h' x' hh hh' e => by
      rw [hget] at hh hh'
      split at hh
      · rename_i e1
        cases hh
        split at hh'
        · rename_i e2
          rw [e1, e2]
        · have := (v.hLt h' x' hh').2.2.1
          simp only at e
          omega
      · split at hh'
        · cases hh'
          have := (v.hLt h x hh).2.2.1
          simp only at e
          omega
        · exact v.hApart h x h' x' hh hh' e
    back := fun h x hh => by
      rw [hget] at hh
      split at hh
      · rename_i e
        cases hh
        exact ⟨_, _, .inl ⟨e, rfl, rfl, rfl⟩⟩
      · obtain ⟨n, code, k⟩ := v.back h x hh
        exact ⟨n, code, .inr k⟩
    held := fun h a n code hh => by
      rcases hh with ⟨e1, e2, e3, e4⟩ | hh
      · refine ⟨_, by rw [hget, if_pos e1], e2.symm, s, List.mem_append_right _ (List.mem_singleton.mpr rfl), e2.symm,
          e3.symm, e4.symm, rfl, rfl, fun s' h' e => ?_⟩
        rcases List.mem_append.mp h' with h' | h'
        · have := v.jit.tracker s' h'
          simp only at e
          omega
        · exact List.mem_singleton.mp h'
      · obtain ⟨x, k1, k2, s2, k3, k4, k5, k6, k7, k8, k9⟩ := v.held h a n code hh
        refine ⟨x, by rw [hget, if_neg (hold h x k1)]; exact k1, k2, s2, List.mem_append_left _ k3, k4, k5, k6, k7, k8,
          fun s' h' e => ?_⟩
        rcases List.mem_append.mp h' with h' | h'
        · exact k9 s' h' e
        · rw [List.mem_singleton.mp h'] at e
          have := (v.hLt h x k1).2.2.1
          omega
    old := fun s hs => List.mem_append_left _ (v.old s hs)
    owned := fun x hx => by
      rcases List.mem_append.mp hx with hx | hx
      · refine (v.owned x hx).imp id fun ⟨k1, k2⟩ => ⟨k1, .inl ?_⟩
        rcases k2 with (k2 | ⟨h, y, k2, k3⟩) | k2
        · exact .inl k2
        · exact .inr ⟨h, y, by rw [hget, if_neg (hold h y k2)]; exact k2, k3⟩
        · exact k2.elim
      · rw [List.mem_singleton.mp hx]
        exact .inr ⟨hb, .inl (.inr ⟨p.next, _, by rw [hget, if_pos rfl], rfl⟩)⟩
    clean := fun hl x hx => by
      rcases List.mem_append.mp hx with hx | hx
      · refine (v.clean hl x hx).imp id fun ⟨h, y, k1, k2⟩ => ⟨h, y, ?_, k2⟩
        rw [hget, if_neg (hold h y k1)]
        exact k1
      · rw [List.mem_singleton.mp hx]
        exact .inr ⟨p.next, _, by rw [hget, if_pos rfl], rfl⟩ }

/-- A handle is dropped. -/
theorem WInv.dropHandle {j0 : Jit} {H : Nat → Nat → Name → Code → Prop} {L : Prop} {p : Pool} (ok : j0.Ok)
    (v : WInv j0 H L none' p) {h : Nat} {x : Handle} (hx : p.handles.get h = some x) :
    WInv j0 (fun h' a n code => h' ≠ h ∧ H h' a n code) L (· = x.dylib)
      { p with jit := p.jit.removeTracker x.tracker, handles := p.handles.erase h } := by
  have hget : ∀ h', (p.handles.erase h).get h' = if h' = h then none else p.handles.get h' :=
    fun h' => AMap.get_erase _ _ _
  have hof : ∀ h' y, (p.handles.erase h).get h' = some y → h' ≠ h ∧ p.handles.get h' = some y := by
    intro h' y hh
    rw [hget] at hh
    split at hh
    · cases hh
    · exact ⟨by assumption, hh⟩
  exact { v with
    jit := v.jit.filter _
    hNd := AMap.nodup_erase v.hNd _
    hLt := fun h' y hh => v.hLt h' y (hof h' y hh).2
    hApart := fun h' y h2 y2 hh hh' => v.hApart h' y h2 y2 (hof _ _ hh).2 (hof _ _ hh').2
    back := fun h' y hh => by
      obtain ⟨n, code, k⟩ := v.back h' y (hof _ _ hh).2
      exact ⟨n, code, (hof _ _ hh).1, k⟩
    held := fun h' a n code hh => by
      obtain ⟨y, k1, k2, s, k3, k4, k5, k6, k7, k8, k9⟩ := v.held h' a n code hh.2
      refine ⟨y, by rw [hget, if_neg hh.1]; exact k1, k2, s, List.mem_filter.mpr ⟨k3, ?_⟩, k4, k5, k6, k7, k8,
        fun s' h' => k9 s' (List.mem_filter.mp h').1⟩
      simp only [bne_iff_ne, ne_eq]
      intro e
      exact hh.1 (v.hApart h' y h x k1 hx (k7.symm.trans e))
    old := fun s hs => List.mem_filter.mpr ⟨v.old s hs, by
      simp only [bne_iff_ne, ne_eq]
      have := ok.tracker s hs
      have := (v.hLt h x hx).2.1
      omega⟩
    owned := fun s hs => by
      refine (v.owned s (List.mem_filter.mp hs).1).imp id fun ⟨k1, k2⟩ => ⟨k1, ?_⟩
      rcases k2 with (k2 | ⟨h', y, k2, k3⟩) | k2
      · exact .inl (.inl k2)
      · by_cases e : h' = h
        · subst e
          rw [hx] at k2
          cases k2
          exact .inr k3.symm
        · exact .inl (.inr ⟨h', y, by rw [hget, if_neg e]; exact k2, k3⟩)
      · exact k2.elim
    clean := fun hl s hs => by
      obtain ⟨h1, h2⟩ := List.mem_filter.mp hs
      simp only [bne_iff_ne, ne_eq] at h2
      refine (v.clean hl s h1).imp id fun ⟨h', y, k1, k2⟩ => ⟨h', y, ?_, k2⟩
      rw [hget, if_neg]
      · exact k1
      · intro e
        subst e
        rw [hx] at k1
        cases k1
        obtain ⟨n, code, k3⟩ := v.back _ _ hx
        obtain ⟨z, k4, k5, s2, k6, k7, k8, k9, k10, _⟩ := v.held _ _ _ _ k3
        rw [hx] at k4
        cases k4
        have := eq_of_addr v.jit h1 k6 (k2.trans k7.symm)
        rw [this] at h2
        exact h2 k10 }

/-! ## Jobs -/

theorem insert_insert {m : AMap Nat Worker} {k : Nat} {a b : Worker} : (m.insert k a).insert k b = m.insert k b := by
  simp [AMap.insert, AMap.erase, List.filter_filter]

/-- The worker's compiler after a job, before it may be recycled. -/
theorem WInv.compile {j0 : Jit} {H : Nat → Nat → Name → Code → Prop} {L : Prop} {p : Pool}
    (v : WInv j0 H L none' p) {w : Nat} {s : Worker}
    (hw : p.workers.get w = some s ∨ (p.workers.get w = none ∧ s.comp = Comp.new false))
    {n : Name} {code : Code} {parsed uses opt link : Bool} {j' : Jit} {c' : Comp} {out : Out}
    (he : compile p.jit s.comp n code parsed uses opt link = (j', c', out)) (count : Nat) :
    (out = .failed ∧
      WInv j0 H (L ∧ link = true) none' ⟨j', p.workers.insert w ⟨clearIr c', count⟩, p.handles, p.next⟩) ∨
    ∃ h, out = .ok h ∧
      WInv j0 (fun h' a n' code' => (h' = p.next ∧ a = h.addr ∧ n' = n ∧ code' = code) ∨ H h' a n' code') L none'
        ⟨j', p.workers.insert w ⟨clearIr c', count⟩, p.handles.insert p.next h, p.next + 1⟩ := by
  have hi : Idle s.comp := by
    rcases hw with hw | ⟨_, hw⟩
    · exact v.idle w s hw
    · rw [hw]; exact idle_new
  have hof : ∀ s2 o, p.workers.get w = some s2 → s2.comp.orc = some o → s.comp.orc = some o := by
    intro s2 o h1 h2
    rcases hw with hw | ⟨hw, _⟩
    · rw [hw] at h1; cases h1; exact h2
    · rw [hw] at h1; cases h1
  have hto : ∀ o, s.comp.orc = some o → p.workers.get w = some s := by
    intro o h1
    rcases hw with hw | ⟨_, hw⟩
    · exact hw
    · rw [hw] at h1; cases h1
  rcases compile_cases hi p.jit n code parsed uses opt link with ⟨_, h1⟩ |
      ⟨o, j1, j2, c2, out2, _, ho, h1, ha, o', ho', hd, h2⟩
  · rw [h1] at he
    cases he
    left
    refine ⟨rfl, ?_⟩
    have v2 := v.setWorker (w := w) (s' := ⟨clearIr s.comp, count⟩) (idle_clearIr hi.aot) (fun o2 h3 => by
        cases ho : s.comp.orc with
        | none => simp [clearIr, ho] at h3
        | some o3 =>
          simp [clearIr, ho] at h3
          exact .inl ⟨s, o3, hto o3 ho, ho, by rw [← h3]⟩) (fun s2 o2 h3 h4 => by
        have := hof s2 o2 h3 h4
        exact ⟨{ o2 with staged := [] }, by simp [clearIr, this], rfl⟩)
    exact v2.mono (fun _ _ _ _ => Iff.rfl) (fun h => h.1) (fun _ h => h)
  · rw [h1] at he
    cases he
    have hj1 : j1.syms = p.jit.syms ∧ p.jit.nextDylib ≤ j1.nextDylib ∧ j1.nextTracker = p.jit.nextTracker ∧
        j1.nextAddr = p.jit.nextAddr := by
      rcases ho with ⟨_, rfl⟩ | ⟨_, _, rfl⟩
      · exact ⟨rfl, Nat.le_refl _, rfl, rfl⟩
      · exact ⟨rfl, Nat.le_succ _, rfl, rfl⟩
    have v1 := v.bump hj1.1 hj1.2.1 (Nat.le_of_eq hj1.2.2.1.symm) (Nat.le_of_eq hj1.2.2.2.symm)
    have hoc : (clearIr c').orc = some { o' with staged := [] } := by simp [clearIr, ho']
    have hdl : j0.nextDylib ≤ o.dylib ∧ o.dylib < j1.nextDylib := by
      rcases ho with ⟨h3, rfl⟩ | ⟨_, rfl, rfl⟩
      · exact v.wDylib w s o (hto o h3) h3
      · exact ⟨v.dylibs, Nat.lt_succ_self _⟩
    have v2 := v1.setWorker (w := w) (s' := ⟨clearIr c', count⟩) (idle_clearIr ha) (fun o2 h3 => by
        change (clearIr c').orc = some o2 at h3
        rw [hoc] at h3
        cases h3
        rcases ho with ⟨h3, rfl⟩ | ⟨h3, h4, h5⟩
        · exact .inl ⟨s, o, hto o h3, h3, hd.symm⟩
        · right
          refine ⟨by show _ ≤ o'.dylib; rw [hd]; exact hdl.1, by show o'.dylib < _; rw [hd]; exact hdl.2, ?_⟩
          intro w2 s2 o2 h6 h7 h8
          have := (v.wDylib w2 s2 o2 h6 h7).2
          change o2.dylib = o'.dylib at h8
          rw [hd, h4] at h8
          simp only at h8
          omega) (fun s2 o2 h3 h4 => by
        refine ⟨_, hoc, ?_⟩
        show o'.dylib = _
        rw [hd]
        have := hof s2 o2 h3 h4
        rcases ho with ⟨h5, _⟩ | ⟨h5, _⟩
        · rw [this] at h5; cases h5; rfl
        · rw [this] at h5; cases h5)
    have hkept : Kept { p with jit := j1, workers := p.workers.insert w ⟨clearIr c', count⟩ } o.dylib :=
      .inl ⟨w, ⟨clearIr c', count⟩, { o' with staged := [] }, by show (p.workers.insert w _).get w = _; rw [AMap.get_insert, if_pos rfl], hoc, hd⟩
    rcases h2 with ⟨_, rfl, _, rfl⟩ | ⟨_, _, rfl, _, rfl⟩ | ⟨_, _, rfl, ⟨hl, _, rfl⟩ | ⟨_, _, rfl⟩⟩
    · exact .inl ⟨rfl, v2.mono (fun _ _ _ _ => Iff.rfl) (fun h => h.1) (fun _ h => h)⟩
    · refine .inl ⟨rfl, ?_⟩
      have v3 := v2.bump (j' := { j1 with nextTracker := j1.nextTracker + 1 }) rfl (Nat.le_refl _) (Nat.le_succ _)
        (Nat.le_refl _)
      exact v3.mono (fun _ _ _ _ => Iff.rfl) (fun h => h.1) (fun _ h => h)
    · refine .inl ⟨rfl, ?_⟩
      have v3 := v2.leak (s := newSym j1 s.comp o.dylib n code) hdl.1 hdl.2 rfl rfl (.inl hkept)
      exact v3.mono (fun _ _ _ _ => Iff.rfl) (fun h => by rw [hl] at h; cases h.2) (fun _ h => h)
    · refine .inr ⟨_, rfl, ?_⟩
      exact v2.hand (s := newSym j1 s.comp o.dylib n code) hdl.1 hdl.2 rfl rfl

/-- The worker's compiler may be recycled. -/
theorem WInv.recycle {j0 : Jit} (ok : j0.Ok) {H : Nat → Nat → Name → Code → Prop} {L : Prop} {p : Pool} {w : Nat} {s : Worker}
    (v : WInv j0 H L none' p) (hw : p.workers.get w = some s) {ws : AMap Nat Worker} (hn : ws.Nodup)
    (hne : ∀ w2, w2 ≠ w → ws.get w2 = p.workers.get w2)
    (hnew : ∀ s', ws.get w = some s' → Idle s'.comp ∧ s'.comp.orc = none) :
    WInv j0 H L none' ⟨releaseComp p.jit ws p.handles s.comp, ws, p.handles, p.next⟩ := by
  rw [releaseComp]
  cases ho : s.comp.orc with
  | none =>
    exact v.dropBare (fun s2 h2 => by rw [hw] at h2; cases h2; exact ho) hn hne hnew
  | some o =>
    exact (v.dropComp hw ho hn hne hnew).release ok (v.wDylib w s o hw ho).1

theorem WInv.settle {j0 : Jit} (ok : j0.Ok) {H : Nat → Nat → Name → Code → Prop} {L : Prop} {p : Pool} {w : Nat} {c : Comp}
    (hn : p.workers.Nodup)
    (key : ∀ count, WInv j0 H L none' { p with workers := p.workers.insert w ⟨clearIr c, count⟩ })
    (limit count : Nat) (recreated : Bool) : WInv j0 H L none' (settle limit p w c count recreated) := by
  rw [Workers.settle]
  simp only
  split
  · split
    · have := (key 0).recycle ok (w := w) (s := ⟨clearIr c, 0⟩)
        (by show (p.workers.insert w _).get w = _; rw [AMap.get_insert, if_pos rfl])
        (ws := p.workers.insert w ⟨Comp.new false, 0⟩) (AMap.nodup_insert hn _ _)
        (fun w2 h2 => by
          show _ = (p.workers.insert w _).get w2
          rw [AMap.get_insert, AMap.get_insert, if_neg h2, if_neg h2])
        (fun s' h2 => by
          rw [AMap.get_insert, if_pos rfl] at h2
          cases h2
          exact ⟨idle_new, rfl⟩)
      exact this
    · exact key 0
  · exact key _

theorem WInv.step {j0 : Jit} (ok : j0.Ok) {limit : Nat} {r : Hist} {p p' : Pool} {e : Ev} {x : Ret}
    (v : WInv j0 (Held r) (Linked r) none' p) (he : step limit p e = (p', x)) :
    WInv j0 (Held ((e, x) :: r)) (Linked ((e, x) :: r)) none' p' ∧ x ≠ .panic := by
  cases e with
  | job w n code parsed uses opt link created recreated =>
    rw [Workers.step, job] at he
    have hst : ∀ s, stateOf p w created = some s →
        p.workers.get w = some s ∨ (p.workers.get w = none ∧ s.comp = Comp.new false) := by
      intro s hs
      rw [stateOf] at hs
      cases hg : p.workers.get w with
      | some s2 => simp only [hg] at hs; exact .inl hs
      | none =>
        simp only [hg] at hs
        split at hs
        · cases hs; exact .inr ⟨rfl, rfl⟩
        · cases hs
    revert he hst
    generalize stateOf p w created = st
    intro he hst
    cases st with
    | none =>
      cases he
      exact ⟨v.mono (fun _ _ _ _ => Iff.rfl) (fun h => h.2) (fun _ h => h), by simp⟩
    | some s =>
      have hw := hst s rfl
      cases hc : Workers.compile p.jit s.comp n code parsed uses opt link with
      | mk j q =>
        obtain ⟨c, out⟩ := q
        simp only [hc] at he
        cases out with
        | panic =>
          rcases v.compile hw hc 0 with ⟨k, _⟩ | ⟨_, k, _⟩ <;> cases k
        | failed =>
          simp only at he
          cases he
          have key : ∀ count, WInv j0 (Held r) (Linked r ∧ link = true) none'
              ⟨j, p.workers.insert w ⟨clearIr c, count⟩, p.handles, p.next⟩ := by
            intro count
            rcases v.compile hw hc count with ⟨_, k⟩ | ⟨_, k, _⟩
            · exact k
            · cases k
          have := WInv.settle ok (p := { p with jit := j }) v.wNd key limit s.count recreated
          exact ⟨this.mono (fun _ _ _ _ => Iff.rfl) (fun h => ⟨h.2, h.1⟩) (fun _ h => h), by simp⟩
        | ok h =>
          simp only at he
          cases he
          have key : ∀ count, WInv j0 (fun h' a n' code' => (h' = p.next ∧ a = h.addr ∧ n' = n ∧ code' = code) ∨ Held r h' a n' code')
              (Linked r) none' ⟨j, p.workers.insert w ⟨clearIr c, count⟩, p.handles.insert p.next h, p.next + 1⟩ := by
            intro count
            rcases v.compile hw hc count with ⟨k, _⟩ | ⟨h2, k, k2⟩
            · cases k
            · cases k; exact k2
          have := WInv.settle ok (p := { p with jit := j, handles := p.handles.insert p.next h, next := p.next + 1 })
            v.wNd key limit s.count recreated
          exact ⟨this.mono (fun _ _ _ _ => Iff.rfl) (fun h => h.2) (fun _ h => h), by simp⟩
  | linkObject n code found =>
    rw [Workers.step, linkObject] at he
    have hnd : Jit.defined { p.jit with nextDylib := p.jit.nextDylib + 1, nextTracker := p.jit.nextTracker + 1 }
        p.jit.nextDylib n = false :=
      defined_false fun s hs hd => by have := v.jit.dylib s hs; omega
    have hadd : Jit.add { p.jit with nextDylib := p.jit.nextDylib + 1, nextTracker := p.jit.nextTracker + 1 }
        p.jit.nextDylib p.jit.nextTracker 0 [(n, code)] =
        some ⟨p.jit.nextDylib + 1, p.jit.nextTracker + 1, p.jit.nextAddr + 1,
          p.jit.syms ++ [⟨p.jit.nextDylib, n, p.jit.nextTracker, p.jit.nextAddr, code, 0⟩]⟩ := by
      simp [Jit.add, hnd, Jit.place]
    have v1 := v.bump (j' := { p.jit with nextDylib := p.jit.nextDylib + 1 }) rfl (Nat.le_succ _) (Nat.le_refl _)
      (Nat.le_refl _)
    have hlk := lookup_last hnd (s := ⟨p.jit.nextDylib, n, p.jit.nextTracker, p.jit.nextAddr, code, 0⟩) rfl rfl
      (p.jit.nextAddr + 1) (p.jit.nextTracker + 1) (p.jit.nextDylib + 1)
    simp only at hlk
    simp only [hadd, hlk] at he
    cases found with
    | false =>
      cases he
      refine ⟨?_, by simp⟩
      have v2 := v1.bump (j' := { p.jit with
          nextDylib := p.jit.nextDylib + 1, nextTracker := p.jit.nextTracker + 1, nextAddr := p.jit.nextAddr + 1 })
        rfl (Nat.le_refl _) (Nat.le_succ _) (Nat.le_succ _)
      have hk : kept p.workers p.handles p.jit.nextDylib = false := by
        cases hk : kept p.workers p.handles p.jit.nextDylib with
        | false => rfl
        | true =>
          rcases (kept_iff v.wNd v.hNd _).mp hk with ⟨w, s, o, k1, k2, k3⟩ | ⟨h, x, k1, k2⟩
          · have := (v.wDylib w s o k1 k2).2; omega
          · have := (v.hLt h x k1).2.2.2.2; omega
      have hf : p.jit.syms.filter (fun s => s.dylib != p.jit.nextDylib) = p.jit.syms := by
        rw [List.filter_eq_self]
        intro s hs
        have := v.jit.dylib s hs
        simp only [bne_iff_ne, ne_eq]
        omega
      have hr : Workers.release ⟨p.jit.nextDylib + 1, p.jit.nextTracker + 1, p.jit.nextAddr + 1,
          p.jit.syms ++ [⟨p.jit.nextDylib, n, p.jit.nextTracker, p.jit.nextAddr, code, 0⟩]⟩ p.workers p.handles
          p.jit.nextDylib = { p.jit with
          nextDylib := p.jit.nextDylib + 1, nextTracker := p.jit.nextTracker + 1, nextAddr := p.jit.nextAddr + 1 } := by
        simp [Workers.release, hk, Jit.clearDylib, List.filter_append, hf]
      rw [hr]
      exact v2.mono (fun _ _ _ _ => Iff.rfl) id (fun _ h => h)
    | true =>
      cases he
      refine ⟨?_, by simp⟩
      have := v1.hand (s := ⟨p.jit.nextDylib, n, p.jit.nextTracker, p.jit.nextAddr, code, 0⟩) v.dylibs
        (Nat.lt_succ_self _) rfl rfl
      exact this.mono (fun _ _ _ _ => Iff.rfl) id (fun _ h => h)
  | dropHandle h =>
    rw [Workers.step, Workers.dropHandle] at he
    cases hg : p.handles.get h with
    | none =>
      simp only [hg] at he
      cases he
      refine ⟨v.mono (fun h' a n code => ⟨fun k => ⟨fun e => ?_, k⟩, fun k => k.2⟩) id (fun _ h => h), by simp⟩
      obtain ⟨x, k1, _⟩ := v.held h' a n code k
      rw [e, hg] at k1
      cases k1
    | some x =>
      simp only [hg] at he
      cases he
      refine ⟨?_, by simp⟩
      exact ((v.dropHandle ok hg).release ok (v.hLt h x hg).2.2.2.1).mono (fun _ _ _ _ => Iff.rfl) id (fun _ h => h)
  | exitWorker w =>
    rw [Workers.step, exitWorker] at he
    cases hg : p.workers.get w with
    | none =>
      simp only [hg] at he
      cases he
      exact ⟨v.mono (fun _ _ _ _ => Iff.rfl) id (fun _ h => h), by simp⟩
    | some s =>
      simp only [hg] at he
      cases he
      refine ⟨?_, by simp⟩
      have := v.recycle ok hg (ws := p.workers.erase w) (AMap.nodup_erase v.wNd _)
        (fun w2 h2 => by rw [AMap.get_erase, if_neg h2])
        (fun s' h2 => by rw [AMap.get_erase, if_pos rfl] at h2; cases h2)
      exact this.mono (fun _ _ _ _ => Iff.rfl) id (fun _ h => h)

theorem Run.inv {limit : Nat} {j0 : Jit} (ok : j0.Ok) {r : Hist} {p : Pool} (h : Run limit j0 r p) :
    WInv j0 (Held r) (Linked r) none' p := by
  induction h with
  | start => exact winv_start ok
  | step _ he ih => exact (ih.step ok he).1

end Verif.Workers
