import Verif.Model.AMap
/-!
# Lemmas: finite maps
-/

namespace Verif.AMap

variable {κ α : Type} [DecidableEq κ]

theorem get_nil (k : κ) : AMap.get ([] : AMap κ α) k = none := rfl

theorem get_cons (c : κ) (v : α) (r : AMap κ α) (k : κ) :
    AMap.get ((c, v) :: r) k = if k = c then some v else AMap.get r k := rfl

theorem get_erase (m : AMap κ α) (k q : κ) : (m.erase k).get q = if q = k then none else m.get q := by
  induction m with
  | nil => simp [AMap.erase, AMap.get]
  | cons a r ih =>
    obtain ⟨c, v⟩ := a
    simp only [AMap.erase] at ih ⊢
    by_cases hc : c = k
    · subst hc
      rw [List.filter_cons_of_neg (by simp), ih, get_cons]
      by_cases hq : q = c <;> simp [hq]
    · rw [List.filter_cons_of_pos (by simp [hc]), get_cons, get_cons, ih]
      by_cases hq : q = c
      · subst hq; simp [hc]
      · simp [hq]

theorem get_insert (m : AMap κ α) (k q : κ) (v : α) :
    (m.insert k v).get q = if q = k then some v else m.get q := by
  rw [AMap.insert, get_cons, get_erase]
  by_cases hq : q = k <;> simp [hq]

theorem get_update (m : AMap κ α) (k q : κ) (f : α → α) :
    (m.update k f).get q = if q = k then (m.get q).map f else m.get q := by
  induction m with
  | nil => simp [AMap.update, AMap.get]
  | cons a r ih =>
    obtain ⟨c, v⟩ := a
    simp only [AMap.update] at ih ⊢
    rw [List.map_cons]
    by_cases hc : c = k
    · subst hc
      simp only [if_true, get_cons, ih]
      by_cases hq : q = c <;> simp [hq]
    · simp only [hc, if_false, get_cons, ih]
      by_cases hq : q = c
      · subst hq; simp [hc]
      · simp [hq]

theorem has_iff (m : AMap κ α) (k : κ) : m.has k = true ↔ ∃ v, m.get k = some v :=
  Option.isSome_iff_exists

theorem mem_of_get {m : AMap κ α} {k : κ} {v : α} (h : m.get k = some v) : (k, v) ∈ m := by
  induction m with
  | nil => simp [AMap.get] at h
  | cons a r ih =>
    obtain ⟨c, w⟩ := a
    rw [get_cons] at h
    split at h
    · rename_i hk; simp only [Option.some.injEq] at h; subst hk; subst h; exact List.mem_cons_self
    · exact List.mem_cons_of_mem _ (ih h)

theorem mem_keys_iff (m : AMap κ α) (k : κ) : k ∈ m.keys ↔ ∃ v, m.get k = some v := by
  induction m with
  | nil => simp [AMap.keys, AMap.get]
  | cons a r ih =>
    obtain ⟨c, w⟩ := a
    simp only [AMap.keys, List.map_cons, List.mem_cons] at ih ⊢
    rw [get_cons]
    by_cases hk : k = c
    · simp [hk]
    · simp [hk, ih]

/-- No key occurs twice. -/
def Nodup (m : AMap κ α) : Prop := m.keys.Nodup

theorem get_of_mem {m : AMap κ α} (hn : m.Nodup) {k : κ} {v : α} (h : (k, v) ∈ m) : m.get k = some v := by
  induction m with
  | nil => simp at h
  | cons a r ih =>
    obtain ⟨c, w⟩ := a
    have hn' : (c :: r.map (·.1)).Nodup := hn
    rw [List.nodup_cons] at hn'
    rw [get_cons]
    rcases List.mem_cons.mp h with h2 | h2
    · simp only [Prod.mk.injEq] at h2; simp [h2.1, h2.2]
    · have hne : k ≠ c := fun he => hn'.1 (List.mem_map.mpr ⟨(k, v), h2, he⟩)
      simp [hne, ih hn'.2 h2]

theorem mem_iff {m : AMap κ α} (hn : m.Nodup) (k : κ) (v : α) : (k, v) ∈ m ↔ m.get k = some v :=
  ⟨get_of_mem hn, mem_of_get⟩

theorem nodup_nil : Nodup ([] : AMap κ α) := List.nodup_nil

theorem nodup_filter {m : AMap κ α} (h : m.Nodup) (p : κ × α → Bool) : Nodup (m.filter p) :=
  List.Nodup.sublist (List.Sublist.map _ List.filter_sublist) h

theorem nodup_erase {m : AMap κ α} (h : m.Nodup) (k : κ) : (m.erase k).Nodup := nodup_filter h _

theorem nodup_insert {m : AMap κ α} (h : m.Nodup) (k : κ) (v : α) : (m.insert k v).Nodup := by
  show (k :: (m.erase k).keys).Nodup
  rw [List.nodup_cons]
  refine ⟨?_, nodup_erase h k⟩
  rw [mem_keys_iff]
  rintro ⟨w, hw⟩
  rw [get_erase] at hw; simp at hw

theorem keys_update (m : AMap κ α) (k : κ) (f : α → α) : (m.update k f).keys = m.keys := by
  simp only [AMap.update, AMap.keys, List.map_map]
  apply List.map_congr_left
  intro a _
  simp only [Function.comp]
  split <;> rfl

theorem nodup_update {m : AMap κ α} (h : m.Nodup) (k : κ) (f : α → α) : (m.update k f).Nodup := by
  unfold Nodup; rw [keys_update]; exact h

theorem length_update (m : AMap κ α) (k : κ) (f : α → α) : (m.update k f).length = m.length := by
  simp [AMap.update]

theorem length_insert_of_not_has {m : AMap κ α} {k : κ} (h : m.get k = none) (v : α) :
    (m.insert k v).length = m.length + 1 := by
  have : m.erase k = m := by
    apply List.filter_eq_self.mpr
    intro a ha
    by_cases hk : a.1 = k
    · have : k ∈ m.keys := List.mem_map.mpr ⟨a, ha, hk⟩
      rw [mem_keys_iff] at this
      obtain ⟨v, hv⟩ := this
      rw [h] at hv; cases hv
    · simpa using hk
  simp [AMap.insert, this]

theorem get_filter {m : AMap κ α} (hn : m.Nodup) (p : κ × α → Bool) (k : κ) :
    (AMap.get (m.filter p) k) = (m.get k).filter (fun v => p (k, v)) := by
  cases hg : m.get k with
  | none =>
    cases hf : AMap.get (m.filter p) k with
    | none => rfl
    | some v =>
      have := mem_of_get hf
      rw [List.mem_filter] at this
      rw [get_of_mem hn this.1] at hg; cases hg
  | some v =>
    have hm := mem_of_get hg
    by_cases hp : p (k, v) = true
    · have : (k, v) ∈ m.filter p := List.mem_filter.mpr ⟨hm, hp⟩
      rw [get_of_mem (nodup_filter hn p) this]
      simp [Option.filter, hp]
    · cases hf : AMap.get (m.filter p) k with
      | none => simp [Option.filter, hp]
      | some w =>
        have := mem_of_get hf
        rw [List.mem_filter] at this
        have hw := get_of_mem hn this.1
        rw [hg] at hw; cases hw
        exact absurd this.2 hp

end Verif.AMap
