import Verif.Spec.StateRoot
/-!
# Lemmas on state roots
-/

namespace Verif.StateRoot
open Spec

theorem mem_insertKey {V : Type} (e x : Nat × V) (l : List (Nat × V)) : x ∈ insertKey e l ↔ x = e ∨ x ∈ l := by
  induction l with
  | nil => simp [insertKey]
  | cons y ys ih =>
    rw [insertKey]
    split
    · simp
    · rw [List.mem_cons, ih, List.mem_cons]
      constructor
      · rintro (h | h | h)
        · exact .inr (.inl h)
        · exact .inl h
        · exact .inr (.inr h)
      · rintro (h | h | h)
        · exact .inr (.inl h)
        · exact .inl h
        · exact .inr (.inr h)

theorem mem_sortKey {V : Type} (x : Nat × V) (l : List (Nat × V)) : x ∈ sortKey l ↔ x ∈ l := by
  unfold sortKey
  induction l with
  | nil => simp
  | cons y ys ih => rw [List.foldr_cons, mem_insertKey, ih, List.mem_cons]

theorem insertKey_sorted {V : Type} (e : Nat × V) (l : List (Nat × V)) (h : l.Pairwise (·.1 < ·.1))
    (hn : ∀ x ∈ l, x.1 ≠ e.1) : (insertKey e l).Pairwise (·.1 < ·.1) := by
  induction l with
  | nil => simp [insertKey]
  | cons y ys ih =>
    have hy := hn y (by simp)
    obtain ⟨h1, h2⟩ := List.pairwise_cons.1 h
    rw [insertKey]
    split
    · rename_i hle
      refine List.pairwise_cons.2 ⟨?_, h⟩
      intro x hx
      rcases List.mem_cons.1 hx with rfl | hx
      · omega
      · have := h1 x hx; omega
    · rename_i hle
      refine List.pairwise_cons.2 ⟨?_, ih h2 fun x hx => hn x (by simp [hx])⟩
      intro x hx
      rcases (mem_insertKey e x ys).1 hx with rfl | hx
      · omega
      · exact h1 x hx

theorem sortKey_sorted {V : Type} (l : List (Nat × V)) (h : (l.map (·.1)).Nodup) : (sortKey l).Pairwise (·.1 < ·.1) := by
  induction l with
  | nil => simp [sortKey]
  | cons y ys ih =>
    rw [List.map_cons, List.nodup_cons] at h
    refine insertKey_sorted y (sortKey ys) (ih h.2) ?_
    intro x hx e
    exact h.1 (List.mem_map.2 ⟨x, (mem_sortKey x ys).1 hx, e⟩)

/-- Lists in strict order are determined by what is in them. -/
theorem sorted_ext {V : Type} : ∀ (l l' : List (Nat × V)), l.Pairwise (·.1 < ·.1) → l'.Pairwise (·.1 < ·.1) →
    (∀ e, e ∈ l ↔ e ∈ l') → l = l'
  | [], [], _, _, _ => rfl
  | [], y :: ys, _, _, h => by have := (h y).2 (by simp); simp at this
  | x :: xs, [], _, _, h => by have := (h x).1 (by simp); simp at this
  | x :: xs, y :: ys, h1, h2, h => by
    obtain ⟨a1, a2⟩ := List.pairwise_cons.1 h1
    obtain ⟨b1, b2⟩ := List.pairwise_cons.1 h2
    have hxy : x = y := by
      rcases List.mem_cons.1 ((h x).1 (by simp)) with e | hx
      · exact e
      · rcases List.mem_cons.1 ((h y).2 (by simp)) with e | hy
        · exact e.symm
        · have := a1 y hy; have := b1 x hx; omega
    subst hxy
    congr 1
    refine sorted_ext xs ys a2 b2 fun e => ⟨fun he => ?_, fun he => ?_⟩
    · rcases List.mem_cons.1 ((h e).1 (by simp [he])) with e' | h'
      · subst e'; have := a1 e he; omega
      · exact h'
    · rcases List.mem_cons.1 ((h e).2 (by simp [he])) with e' | h'
      · subst e'; have := b1 e he; omega
      · exact h'

theorem sortKey_eq {V : Type} (l l' : List (Nat × V)) (h : (l.map (·.1)).Nodup) (h' : (l'.map (·.1)).Nodup) :
    sortKey l = sortKey l' ↔ ∀ e, e ∈ l ↔ e ∈ l' := by
  constructor
  · intro he e
    rw [← mem_sortKey e l, he, mem_sortKey]
  · intro he
    exact sorted_ext _ _ (sortKey_sorted l h) (sortKey_sorted l' h') fun e => by rw [mem_sortKey, mem_sortKey, he]

theorem nodup_map {A : Type} (f : A → Nat) (g : Nat → Nat) (hg : ∀ a b, g a = g b → a = b) (l : List A)
    (h : (l.map f).Nodup) : (l.map (fun x => g (f x))).Nodup := by
  induction l with
  | nil => simp
  | cons x xs ih =>
    rw [List.map_cons, List.nodup_cons] at h ⊢
    refine ⟨?_, ih h.2⟩
    intro hm
    obtain ⟨y, hy, e⟩ := List.mem_map.1 hm
    exact h.1 (List.mem_map.2 ⟨y, hy, hg _ _ e⟩)

theorem nodup_filter (l : List (Nat × Nat)) (p : Nat × Nat → Bool) (h : (l.map (·.1)).Nodup) :
    ((l.filter p).map (·.1)).Nodup := by
  induction l with
  | nil => simp
  | cons x xs ih =>
    rw [List.map_cons, List.nodup_cons] at h
    rw [List.filter_cons]
    split
    · rw [List.map_cons, List.nodup_cons]
      refine ⟨fun hm => h.1 ?_, ih h.2⟩
      obtain ⟨y, hy, e⟩ := List.mem_map.1 hm
      exact List.mem_map.2 ⟨y, (List.mem_filter.1 hy).1, e⟩
    · exact ih h.2

/-- In a map the entries that are not zero are the slots with that value. -/
theorem mem_slot (s : List (Nat × Nat)) (h : (s.map (·.1)).Nodup) (k v : Nat) (hv : v ≠ 0) : (k, v) ∈ s ↔ slot s k = v := by
  unfold slot
  induction s with
  | nil => simp; omega
  | cons x xs ih =>
    rw [List.map_cons, List.nodup_cons] at h
    by_cases hx : x.1 = k
    · rw [List.find?_cons_of_pos (by simp [hx])]
      simp only [Option.map_some, Option.getD_some, List.mem_cons]
      constructor
      · rintro (e | e)
        · rw [← e]
        · exact absurd (List.mem_map.2 ⟨_, e, hx.symm⟩) h.1
      · intro e; left; rw [← e, ← hx]
    · rw [List.find?_cons_of_neg (by simp [hx]), List.mem_cons, ← ih h.2]
      constructor
      · rintro (e | e)
        · rw [← e] at hx; exact absurd rfl hx
        · exact e
      · exact .inr

theorem mem_account (l : List Acct) (h : (l.map (·.address)).Nodup) (x : Acct) (a : Nat) :
    account l a = some x ↔ x ∈ l ∧ x.address = a := by
  unfold account
  induction l with
  | nil => simp
  | cons y ys ih =>
    rw [List.map_cons, List.nodup_cons] at h
    by_cases hy : y.address = a
    · rw [List.find?_cons_of_pos (by simp [hy])]
      simp only [Option.some.injEq, List.mem_cons]
      constructor
      · rintro rfl; exact ⟨.inl rfl, hy⟩
      · rintro ⟨e | e, hx⟩
        · exact e.symm
        · exact absurd (List.mem_map.2 ⟨x, e, hx.trans hy.symm⟩) h.1
    · rw [List.find?_cons_of_neg (by simp [hy]), ih h.2, List.mem_cons]
      constructor
      · rintro ⟨e, hx⟩; exact ⟨.inr e, hx⟩
      · rintro ⟨e | e, hx⟩
        · rw [e] at hx; exact absurd hx hy
        · exact ⟨e, hx⟩

section
variable {R Q : Type} (keccak : Nat → Nat) (storageTrie : List (Nat × Nat) → R) (trie : List (Nat × Leaf R) → Q)
  (hk : ∀ a b, keccak a = keccak b → a = b)

include hk in
theorem storage_sorted (s s' : List (Nat × Nat)) (h : (s.map (·.1)).Nodup) (h' : (s'.map (·.1)).Nodup) :
    sortKey ((s.filter (fun e => e.2 ≠ 0)).map fun e => (keccak e.1, e.2)) =
      sortKey ((s'.filter (fun e => e.2 ≠ 0)).map fun e => (keccak e.1, e.2)) ↔ ∀ k, slot s k = slot s' k := by
  have hmem : ∀ (s : List (Nat × Nat)), (s.map (·.1)).Nodup → ∀ k v,
      (keccak k, v) ∈ (s.filter (fun e => e.2 ≠ 0)).map (fun e => (keccak e.1, e.2)) ↔ v ≠ 0 ∧ slot s k = v := by
    intro s hs k v
    simp only [List.mem_map, List.mem_filter, Prod.mk.injEq]
    constructor
    · rintro ⟨⟨k', v'⟩, ⟨h1, h2⟩, h3, rfl⟩
      have hv : v' ≠ 0 := by simpa using h2
      cases hk _ _ h3
      exact ⟨hv, (mem_slot s hs _ v' hv).1 h1⟩
    · rintro ⟨hv, e⟩
      exact ⟨(k, v), ⟨(mem_slot s hs k v hv).2 e, by simpa using hv⟩, rfl, rfl⟩
  rw [sortKey_eq]
  · constructor
    · intro he k
      by_cases hz : slot s k = 0
      · by_cases hz' : slot s' k = 0
        · rw [hz, hz']
        · have := (hmem s h k (slot s' k)).1 ((he _).2 ((hmem s' h' k _).2 ⟨hz', rfl⟩))
          exact this.2
      · exact ((hmem s' h' k (slot s k)).1 ((he _).1 ((hmem s h k _).2 ⟨hz, rfl⟩))).2.symm
    · intro he e
      constructor
      · intro hm
        obtain ⟨x, _, rfl⟩ := List.mem_map.1 hm
        rw [hmem s h] at hm
        rw [hmem s' h', ← he]; exact hm
      · intro hm
        obtain ⟨x, _, rfl⟩ := List.mem_map.1 hm
        rw [hmem s' h'] at hm
        rw [hmem s h, he]; exact hm
  · rw [List.map_map]; exact nodup_map Prod.fst keccak hk _ (nodup_filter s _ h)
  · rw [List.map_map]; exact nodup_map Prod.fst keccak hk _ (nodup_filter s' _ h')

end

end Verif.StateRoot
