import Verif.Lemmas.HelperSettings
/-!
# Helper settings (C37), CPU limit (C45), startup preload (C46)
-/

namespace Verif.Helper



/-! ## C37 -/

/-- A received gas list is accepted iff it is, in some order, the complete table of a schedule, and
then exactly this schedule is used: missing, duplicate and extra entries are rejected. -/
theorem C37_gas_list (ps : List (UInt8 × UInt64)) (g : GasParams) :
    gasParamsFromPairs ps = .ok g ↔ ps.Perm (Spec.graph g) := by
  have h256 : GAS_PARAM_COUNT = 256 := rfl
  rw [graph_eq]
  have hlen : (gasParamsToPairs g).length = 256 := by simp [gasParamsToPairs, h256]
  have nod : ∀ l : List (UInt8 × UInt64), (l.map Prod.fst).Nodup → l.Nodup :=
    fun l h => (List.pairwise_map.mp h).imp fun hne he => hne (congrArg _ he)
  constructor
  · intro h
    rw [gasParamsFromPairs] at h
    by_cases hl : ps.length ≠ GAS_PARAM_COUNT
    · simp [hl] at h
    · rw [if_neg hl] at h
      cases hf : fillTable ps (fun _ => 0) (fun _ => false) with
      | error e => simp [hf] at h
      | ok ts =>
        obtain ⟨t, s⟩ := ts
        rw [hf] at h
        simp only [] at h
        by_cases ha : (List.range GAS_PARAM_COUNT).any (fun i => !s (UInt8.ofNat i))
        · simp [ha] at h
        · rw [if_neg ha] at h
          cases h
          obtain ⟨a, _, c, _, e⟩ := fillTable_spec _ _ _ _ _ hf
          rw [List.perm_ext_iff_of_nodup (nod _ a) (nod _ (pairs_nodup _))]
          rintro ⟨id, v⟩
          rw [mem_pairs]
          constructor
          · exact c id v
          · rintro rfl
            have hseen : s id = true := by
              simp only [List.any_eq_true, not_exists, not_and, List.mem_range, h256] at ha
              have := ha id.toNat id.toNat_lt
              simpa using this
            rw [e id] at hseen
            simp only [Bool.false_or, decide_eq_true_eq, List.mem_map] at hseen
            obtain ⟨⟨i, w⟩, hw, rfl⟩ := hseen
            rw [c i w hw]; exact hw
  · intro hp
    have hl : ps.length = GAS_PARAM_COUNT := by rw [hp.length_eq, hlen, h256]
    have hn : (ps.map Prod.fst).Nodup := (hp.map Prod.fst).nodup_iff.mpr (pairs_nodup g)
    obtain ⟨t, s, hf⟩ := fillTable_ok ps (fun _ => 0) (fun _ => false) hn (fun _ _ => rfl)
    obtain ⟨_, _, c, _, e⟩ := fillTable_spec _ _ _ _ _ hf
    have hmem : ∀ id, (id, g id) ∈ ps := fun id => hp.mem_iff.mpr ((mem_pairs g id _).mpr rfl)
    have ha : ¬ (List.range GAS_PARAM_COUNT).any (fun i => !s (UInt8.ofNat i)) = true := by
      simp only [List.any_eq_true, not_exists, not_and]
      intro i _
      rw [e]
      have : UInt8.ofNat i ∈ ps.map Prod.fst := List.mem_map.mpr ⟨_, hmem _, rfl⟩
      simp [this]
    have ht : t = g := funext fun id => c id _ (hmem id)
    rw [gasParamsFromPairs, if_neg (by simp [hl]), hf]
    simp only []
    rw [if_neg ha, ht]

/-- The list is rejected when an id is missing, repeated, or the list has the wrong length. -/
theorem C37_malformed (ps : List (UInt8 × UInt64))
    (bad : ps.length ≠ 256 ∨ (∃ id, ∀ v, (id, v) ∉ ps) ∨ ¬ (ps.map Prod.fst).Nodup) :
    ∃ e, gasParamsFromPairs ps = .error e := by
  cases h : gasParamsFromPairs ps with
  | error e => exact ⟨e, rfl⟩
  | ok g =>
    exfalso
    have hp := (C37_gas_list ps g).mp h
    rcases bad with b | ⟨id, b⟩ | b
    · exact b (by rw [hp.length_eq]; simp [Spec.graph])
    · exact b (g id) (hp.mem_iff.mpr (by rw [graph_eq]; exact (mem_pairs g id _).mpr rfl))
    · exact b ((hp.map Prod.fst).nodup_iff.mpr (by rw [graph_eq]; exact pairs_nodup g))

theorem decodeGas_init (c : Config) : decodeGas (helperInit c).gasParams = .ok c.gasParams := by
  show decodeGas (c.gasParams.map gasParamsToPairs) = .ok c.gasParams
  cases c.gasParams with
  | none => rfl
  | some g =>
    have h : gasParamsFromPairs (gasParamsToPairs g) = .ok g :=
      (C37_gas_list _ g).mpr (by rw [graph_eq])
    rw [Option.map_some, decodeGas, h]

/-- The helper compiles a JIT job with the settings an in-process compilation of the same job would
use, whatever the machine it runs on, provided the dump directory (if any) is valid UTF-8. -/
theorem C37_settings (cpus : Nat) (c : Config) (id : Nat) (j : Job)
    (hpath : ∀ p, c.dumpDir = some p → Spec.Utf8 p) (hspec : j.spec ≤ SpecId.AMSTERDAM) :
    ∃ c' j', configFromInit cpus (helperInit c) = .ok c' ∧ readJob (writeJob id j) = .ok (id, j') ∧
      compilerSettings c' .jitObject j' = compilerSettings c .jit j ∧
      c'.jitWorkerCount = c.jitWorkerCount ∧
      c'.compilerRecycleThreshold = c.compilerRecycleThreshold := by
  have hg : decodeGas (helperInit c).gasParams = .ok c.gasParams := decodeGas_init c
  have hd : (c.dumpDir.map toStringLossy).map pathFrom = c.dumpDir := by
    cases hdd : c.dumpDir with
    | none => rfl
    | some p =>
      simp only [Option.map_some, Option.some.injEq, toStringLossy, pathFrom, List.map_map]
      have := hpath p hdd
      refine Eq.trans (List.map_congr_left (g := fun x => x) ?_) (by simp)
      intro x hx
      obtain ⟨ch, rfl⟩ := this x hx
      rfl
  have hs := specFromU8_ofNat j.spec hspec
  have ho : optLevelFromU8 (optLevelToU8 j.optLevel) = .ok j.optLevel := by
    cases j.optLevel <;> rfl
  have hc : ∃ c', configFromInit cpus (helperInit c) = .ok c' ∧
      c' = { c with jitOptLevel := .default, aotOptLevel := .default } := by
    refine ⟨_, by rw [configFromInit, hg], ?_⟩
    simp only [helperInit, hd, Config.default]
  obtain ⟨c', hc, rfl⟩ := hc
  refine ⟨_, j, hc, ?_, ?_, ?_, ?_⟩
  · simp only [readJob, writeJob, hs, ho]
  · simp only [compilerSettings]
  · rfl
  · rfl

/-- Outside UTF-8 the dump directory (not the code) changes: an invalid byte arrives as U+FFFD. -/
theorem C37_dump_dir_lossy : ∃ p : Path, (toStringLossy p).map Sum.inl ≠ p ∧
    pathFrom (toStringLossy p) = [.inl '�'] :=
  ⟨[.inr [0xff]], by decide, rfl⟩

/-- Unknown optimisation levels and forks are refused. -/
theorem C37_bad_bytes (l : UInt8) (h : 4 ≤ l.toNat) : optLevelFromU8 l = .error .badOptLevel := by
  rw [optLevelFromU8]
  have h0 : l ≠ 0 := by rintro rfl; simp at h
  have h1 : l ≠ 1 := by rintro rfl; simp at h
  have h2 : l ≠ 2 := by rintro rfl; simp at h
  have h3 : l ≠ 3 := by rintro rfl; simp at h
  simp [h0, h1, h2, h3]

/-- Non-trivial case: a reversed table is accepted; a table with one id twice is not. -/
example : gasParamsFromPairs (Spec.graph (fun id => id.toUInt64 * 3)).reverse
    = .ok (fun id => id.toUInt64 * 3) :=
  (C37_gas_list _ _).mpr (List.reverse_perm _)

example : ∃ e, gasParamsFromPairs ((0, 7) :: (0, 8) :: (Spec.graph (fun _ => 1)).drop 2)
    = .error e :=
  C37_malformed _ (.inr (.inr (by simp)))

example : ∃ c' j', configFromInit 8 (helperInit
      { debugAssertions := true, singleError := false, noDedup := true, noDse := false,
        dumpDir := some [.inl '/', .inl 'd'], gasParams := some (fun id => id.toUInt64 + 5),
        jitWorkerCount := 3, compilerRecycleThreshold := 7, jitOptLevel := .aggressive,
        aotOptLevel := .none }) = .ok c' ∧
    readJob (writeJob 9 ⟨5, SpecId.OSAKA, [0x60, 1], "f", .less⟩) = .ok (9, j') ∧
    (compilerSettings c' .jitObject j').optLevel = .less ∧
    (compilerSettings c' .jitObject j').dedup = false := by
  obtain ⟨c', j', h1, h2, h3, _⟩ := C37_settings 8
      { debugAssertions := true, singleError := false, noDedup := true, noDse := false,
        dumpDir := some [.inl '/', .inl 'd'], gasParams := some (fun id => id.toUInt64 + 5),
        jitWorkerCount := 3, compilerRecycleThreshold := 7, jitOptLevel := .aggressive,
        aotOptLevel := .none } 9 ⟨5, SpecId.OSAKA, [0x60, 1], "f", .less⟩
      (by rintro p ⟨⟩; intro x hx; simp at hx; rcases hx with rfl | rfl <;> exact ⟨_, rfl⟩) (by decide)
  exact ⟨c', j', h1, h2, by rw [h3]; rfl, by rw [h3]; rfl⟩

/-! ## C45 -/

/-- With a limit of `n > 0`, the helper runs on exactly the lowest-numbered `min n allowed` of the
allowed CPUs (an allowed CPU is kept iff fewer than `n` allowed ones precede it); an empty mask is
refused; without a limit the mask is unchanged. -/
theorem C45_cpus (current : List Bool) (n : Nat) :
    (helperMask current n = none ↔ 0 < n ∧ current.count true = 0) ∧
    (∀ m, helperMask current n = some m →
      m.length = current.length ∧
      (∀ i : Nat, m[i]? = some true → current[i]? = some true) ∧
      (n = 0 → m = current) ∧
      (0 < n → m.count true = min n (current.count true) ∧
        ∀ i : Nat, m[i]? = some true ↔ current[i]? = some true ∧ (current.take i).count true < n)) := by
  by_cases hn : 0 < n
  · have hr := pickCpus_rem current n hn
    rw [helperMask, if_pos hn, limitCpuAffinity]
    constructor
    · split
      · rename_i h; simp only [true_iff]; exact ⟨hn, by omega⟩
      · rename_i h; simp only [reduceCtorEq, false_iff, not_and]; intro _; omega
    · intro m hm
      split at hm
      · cases hm
      · cases hm
        exact ⟨pickCpus_length _ _, fun i hi => ((pickCpus_get _ _ hn i).mp hi).1, by omega,
          fun _ => ⟨pickCpus_count _ _ hn, pickCpus_get _ _ hn⟩⟩
  · rw [helperMask, if_neg hn]
    constructor
    · simp only [reduceCtorEq, false_iff, not_and]; omega
    · rintro m ⟨⟩
      exact ⟨rfl, fun _ h => h, fun _ => rfl, fun h => absurd h hn⟩

example : helperMask [false, true, true, false, true] 2 = some [false, true, true, false, false] := by
  decide

example : helperMask [false, false] 1 = none := by decide

example : helperMask [false, true] 0 = some [false, true] := by decide

/-! ## C46 -/

/-- After startup the program resident for a key is the first artifact for this key, in the store's
order, that loads; a key none of whose artifacts loads has no program. Artifacts for other keys and
failed loads do not matter. -/
theorem C46_first {A K P : Type} [DecidableEq K] (key : A → K) (load : A → Option P)
    (artifacts : List A) (k : K) :
    (∀ p, preload key load artifacts k = some p ↔
      ∃ pre a post, artifacts = pre ++ a :: post ∧ key a = k ∧ load a = some p ∧
        ∀ b ∈ pre, key b = k → load b = none) ∧
    (preload key load artifacts k = none ↔ ∀ a ∈ artifacts, key a = k → load a = none) := by
  have hf : preload key load artifacts k
      = artifacts.findSome? (fun a => if key a = k then load a else none) :=
    preloadLoop_find key load artifacts [] k (by simp)
  rw [hf]
  constructor
  · intro p
    rw [List.findSome?_eq_some_iff]
    constructor
    · rintro ⟨pre, a, post, rfl, h, hpre⟩
      by_cases hk : key a = k
      · rw [if_pos hk] at h
        exact ⟨pre, a, post, rfl, hk, h, fun b hb hbk => by simpa [hbk] using hpre b hb⟩
      · simp [hk] at h
    · rintro ⟨pre, a, post, rfl, hk, h, hpre⟩
      refine ⟨pre, a, post, rfl, by simp [hk, h], fun b hb => ?_⟩
      by_cases hbk : key b = k
      · simp [hbk, hpre b hb hbk]
      · simp [hbk]
  · rw [List.findSome?_eq_none_iff]
    constructor
    · intro h a ha hk; simpa [hk] using h a ha
    · intro h a ha
      by_cases hk : key a = k
      · simp [hk, h a ha hk]
      · simp [hk]

/-- Exactly one program per key is produced by the preload loop. -/
theorem C46_one {A K P : Type} [DecidableEq K] (key : A → K) (load : A → Option P)
    (artifacts : List A) : ((preloadLoop key load artifacts []).map Prod.fst).Nodup := by
  have aux : ∀ (l : List A) (seen : List K), ((preloadLoop key load l seen).map Prod.fst).Nodup ∧
      ∀ k ∈ (preloadLoop key load l seen).map Prod.fst, k ∉ seen := by
    intro l
    induction l with
    | nil => intro seen; simp [preloadLoop]
    | cons a r ih =>
      intro seen
      rw [preloadLoop]
      cases load a with
      | none => exact ih seen
      | some p =>
        simp only []
        by_cases hs : key a ∈ seen
        · rw [if_pos hs]; exact ih seen
        · rw [if_neg hs]
          have := ih (key a :: seen)
          refine ⟨?_, ?_⟩
          · rw [List.map_cons, List.nodup_cons]
            exact ⟨fun hm => this.2 _ hm (by simp), this.1⟩
          · intro k hk
            rw [List.map_cons, List.mem_cons] at hk
            rcases hk with rfl | hk
            · exact hs
            · exact fun h => this.2 k hk (by simp [h])
  exact (aux artifacts []).1

/-- Two artifacts share key 1; the first of them fails to load. -/
example : preload (fun a : Nat × Nat × Bool => a.1) (fun a => if a.2.2 then some a.2.1 else none)
    [(1, 10, false), (2, 20, true), (1, 11, true), (1, 12, true)] 1 = some 11 := by decide

end Verif.Helper
