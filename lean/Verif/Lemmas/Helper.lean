import Verif.Model.Helper
/-! Helper lemmas for `Verif.Props.Helper`. -/

namespace Verif.Helper

theorem ofNat_inj {i j : Nat} (hi : i < 256) (hj : j < 256) (h : UInt8.ofNat i = UInt8.ofNat j) : i = j := by
  have := congrArg UInt8.toNat h
  simp only [UInt8.toNat_ofNat'] at this
  omega

theorem mem_pairs (g : GasParams) (id : UInt8) (v : UInt64) :
    (id, v) ∈ gasParamsToPairs g ↔ g id = v := by
  have h256 : GAS_PARAM_COUNT = 256 := rfl
  simp only [gasParamsToPairs, List.mem_map, List.mem_range, Prod.mk.injEq, h256]
  constructor
  · rintro ⟨i, _, rfl, rfl⟩; rfl
  · rintro rfl
    exact ⟨id.toNat, id.toNat_lt, by simp, by simp⟩

theorem pairs_nodup (g : GasParams) : ((gasParamsToPairs g).map Prod.fst).Nodup := by
  have h256 : GAS_PARAM_COUNT = 256 := rfl
  simp only [gasParamsToPairs, List.map_map, h256]
  rw [List.Nodup, List.pairwise_map]
  refine List.Pairwise.imp_of_mem ?_ (List.nodup_range (n := 256))
  intro a b ha hb hab h
  exact hab (ofNat_inj (List.mem_range.mp ha) (List.mem_range.mp hb) h)

theorem fillTable_spec : ∀ (ps : List (UInt8 × UInt64)) (t : GasParams) (s : UInt8 → Bool)
    (t' : GasParams) (s' : UInt8 → Bool), fillTable ps t s = .ok (t', s') →
    (ps.map Prod.fst).Nodup ∧ (∀ id ∈ ps.map Prod.fst, s id = false) ∧
    (∀ id v, (id, v) ∈ ps → t' id = v) ∧ (∀ id, id ∉ ps.map Prod.fst → t' id = t id) ∧
    (∀ id, s' id = (s id || decide (id ∈ ps.map Prod.fst)))
  | [], t, s, t', s', h => by
    cases h; simp
  | (i, v) :: r, t, s, t', s', h => by
    rw [fillTable] at h
    by_cases hs : s i
    · simp [hs] at h
    · rw [if_neg hs] at h
      obtain ⟨a, b, c, d, e⟩ := fillTable_spec r _ _ _ _ h
      have hni : i ∉ r.map Prod.fst := fun hm => by simpa using b i hm
      refine ⟨?_, ?_, ?_, ?_, ?_⟩
      · simpa using ⟨by simpa using hni, by simpa using a⟩
      · intro id hid
        rw [List.map_cons, List.mem_cons] at hid
        rcases hid with rfl | hid
        · simpa using hs
        · have := b id hid
          by_cases hq : id = i
          · simp [hq] at this
          · simpa [hq] using this
      · intro id w hw
        rw [List.mem_cons] at hw
        rcases hw with hw | hw
        · cases hw
          rw [d i hni]; simp
        · exact c id w hw
      · intro id hid
        rw [List.map_cons, List.mem_cons, not_or] at hid
        rw [d id hid.2]; simp [hid.1]
      · intro id
        rw [e id]
        by_cases hq : id = i
        · simp [hq]
        · simp only [List.map_cons, List.mem_cons, hq, false_or, if_false]

theorem fillTable_ok : ∀ (ps : List (UInt8 × UInt64)) (t : GasParams) (s : UInt8 → Bool),
    (ps.map Prod.fst).Nodup → (∀ id ∈ ps.map Prod.fst, s id = false) →
    ∃ t' s', fillTable ps t s = .ok (t', s')
  | [], t, s, _, _ => ⟨t, s, rfl⟩
  | (i, v) :: r, t, s, hn, hs => by
    rw [fillTable, if_neg (by simpa using hs i (by simp))]
    rw [List.map_cons, List.nodup_cons] at hn
    refine fillTable_ok r _ _ hn.2 ?_
    intro id hid
    have hne : id ≠ i := fun h => hn.1 (h ▸ hid)
    have := hs id (by simp only [List.map_cons, List.mem_cons]; exact .inr hid)
    simpa [hne] using this

theorem pickCpus_length : ∀ (l : List Bool) (n : Nat), (pickCpus l n).1.length = l.length
  | [], n => rfl
  | false :: r, n => by simp [pickCpus, pickCpus_length r]
  | true :: r, n => by
    rw [pickCpus]; split
    · simp
    · simp [pickCpus_length r]

/-- The chosen mask keeps exactly the allowed CPUs preceded by fewer than `n` allowed ones. -/
theorem pickCpus_get : ∀ (l : List Bool) (n : Nat), 0 < n → ∀ (i : Nat),
    (pickCpus l n).1[i]? = some true ↔ l[i]? = some true ∧ (l.take i).count true < n
  | [], n, _, i => by simp [pickCpus]
  | false :: r, n, hn, 0 => by simp [pickCpus]
  | false :: r, n, hn, i + 1 => by
    simp only [pickCpus, List.getElem?_cons_succ, List.take_succ_cons]
    rw [pickCpus_get r n hn i]; simp
  | true :: r, n, hn, 0 => by
    rw [pickCpus]; split <;> simp [hn]
  | true :: r, n, hn, i + 1 => by
    rw [pickCpus]; split
    · rename_i h
      have : n = 1 := by omega
      simp [this]
    · rename_i h
      simp only [List.getElem?_cons_succ, List.take_succ_cons]
      rw [pickCpus_get r (n - 1) (by omega) i]
      simp; omega

theorem pickCpus_rem : ∀ (l : List Bool) (n : Nat), 0 < n →
    (pickCpus l n).2 = n - min n (l.count true)
  | [], n, _ => by simp [pickCpus]
  | false :: r, n, hn => by simp [pickCpus, pickCpus_rem r n hn]
  | true :: r, n, hn => by
    rw [pickCpus]; split
    · simp; omega
    · simp only []
      rw [pickCpus_rem r (n - 1) (by omega)]; simp; omega

theorem pickCpus_count : ∀ (l : List Bool) (n : Nat), 0 < n →
    (pickCpus l n).1.count true = min n (l.count true)
  | [], n, _ => by simp [pickCpus]
  | false :: r, n, hn => by simp [pickCpus, pickCpus_count r n hn]
  | true :: r, n, hn => by
    rw [pickCpus]; split
    · have : List.count true (List.map (fun _ => false) r) = 0 := by
        simp [List.count_eq_zero]
      simp [this]; omega
    · simp only [List.count_cons_self]
      rw [pickCpus_count r (n - 1) (by omega)]; omega

section
variable {A K P : Type} [DecidableEq K] (key : A → K) (load : A → Option P)

/-- Nothing already seen is produced again. -/
theorem preloadLoop_seen : ∀ (l : List A) (seen : List K) (k : K), k ∈ seen →
    residentAfter (preloadLoop key load l seen) k = none
  | [], seen, k, _ => rfl
  | a :: r, seen, k, hk => by
    rw [preloadLoop]
    cases h : load a with
    | none => exact preloadLoop_seen r seen k hk
    | some p =>
      simp only []
      by_cases hs : key a ∈ seen
      · rw [if_pos hs]; exact preloadLoop_seen r seen k hk
      · rw [if_neg hs, residentAfter, preloadLoop_seen r (key a :: seen) k (List.mem_cons_of_mem _ hk)]
        have : key a ≠ k := fun h => hs (h ▸ hk)
        simp [this]

theorem preloadLoop_find : ∀ (l : List A) (seen : List K) (k : K), k ∉ seen →
    residentAfter (preloadLoop key load l seen) k
      = l.findSome? (fun a => if key a = k then load a else none)
  | [], seen, k, _ => rfl
  | a :: r, seen, k, hk => by
    rw [preloadLoop, List.findSome?_cons]
    cases h : load a with
    | none =>
      simp only []
      rw [preloadLoop_find r seen k hk]
      by_cases hq : key a = k <;> simp [hq]
    | some p =>
      simp only []
      by_cases hq : key a = k
      · rw [if_neg (hq ▸ hk), residentAfter, preloadLoop_seen key load r _ k (by simp [hq])]
        simp [hq]
      · rw [if_neg hq]
        by_cases hs : key a ∈ seen
        · rw [if_pos hs]; exact preloadLoop_find r seen k hk
        · rw [if_neg hs, residentAfter, preloadLoop_find r (key a :: seen) k (by simp [hk]; exact fun h => hq h.symm)]
          cases h2 : r.findSome? (fun a => if key a = k then load a else none) <;> simp [hq]
end

end Verif.Helper
