import Verif.Lemmas.Diff
/-!
# C72, C73: comparing the interpreter with compiled code on the command line
-/

namespace Verif.Diff
open Spec

/-! ## C72: the differential run of state tests -/

section
variable {B H K T : Type} [DecidableEq B] [DecidableEq H]

/-- C72: nothing is reported exactly if the two executions ended the same way, with the same output and gas, the same
state and the same logs. -/
theorem C72_compare (r r' : Res B) (state logs state' logs' : H) :
    compare (snapshot r state logs) (snapshot r' state' logs') = [] ↔ r = r' ∧ state = state' ∧ logs = logs' := by
  rw [compare_nil]
  constructor
  · intro h
    cases r <;> cases r' <;> simp_all [snapshot]
  · rintro ⟨rfl, rfl, rfl⟩
    rfl

/-- C72: a field is reported exactly if it differs. -/
theorem C72_fields (a b : Snap B H) (f : Field) :
    f ∈ compare a b ↔ match f with
      | .status => a.status ≠ b.status
      | .output => a.output ≠ b.output
      | .gasUsed => a.gasUsed ≠ b.gasUsed
      | .stateRoot => a.stateRoot ≠ b.stateRoot
      | .logsRoot => a.logsRoot ≠ b.logsRoot := mem_compare a b f

/-- C72: the command ends well exactly if it is given files and compiled code does with every chosen test what the
interpreter does, whether or not it keeps going after a mismatch. -/
theorem C72_verdict (interp : T → Snap B H) (jit : K → T → Snap B H × K) (keepGoing : Bool) (k : K) (files : List (File T)) :
    (∃ s, run interp jit keepGoing k files = .ok s) ↔ files ≠ [] ∧ Agrees interp jit k (chosen files) := by
  unfold run
  cases files with
  | nil => simp
  | cons f fs =>
    simp only [List.isEmpty_cons, Bool.false_eq_true, if_false, ne_eq, reduceCtorEq, not_false_eq_true, true_and]
    rcases runFiles_eq interp jit keepGoing (s := { backend := k }) (s' := { backend := k }) ⟨rfl, rfl, rfl⟩ (f :: fs) with
      ⟨h1, h2⟩ | ⟨r, r', h1, h2, _, _, h3⟩
    · rw [h1]
      cases keepGoing with
      | true =>
        obtain ⟨r, hr, _⟩ := runList_keep interp jit { backend := k } (chosen (f :: fs))
        rw [h2] at hr; cases hr
      | false =>
        rcases runList_stop interp jit { backend := k } (chosen (f :: fs)) with ⟨_, r, hr, _⟩ | ⟨hn, _⟩
        · rw [h2] at hr; cases hr
        · simp [hn]
    · rw [h1]
      dsimp only
      cases keepGoing with
      | true =>
        obtain ⟨q, hq, _, hm⟩ := runList_keep interp jit { backend := k } (chosen (f :: fs))
        rw [h2] at hq; cases hq
        rw [h3, hm, ← disagreements_zero]
        simp only [Nat.zero_add]
        by_cases hz : disagreements interp jit k (chosen (f :: fs)) = 0
        · simp [hz]
        · simp [hz, Nat.pos_of_ne_zero hz]
      | false =>
        rcases runList_stop interp jit { backend := k } (chosen (f :: fs)) with ⟨ha, q, hq, _, hm⟩ | ⟨_, hr⟩
        · rw [h2] at hq; cases hq
          rw [h3, hm]
          simp [ha]
        · rw [h2] at hr; cases hr

/-- C72: the count of tests it prints when it ends well is the number of chosen tests. -/
theorem C72_total (interp : T → Snap B H) (jit : K → T → Snap B H × K) (keepGoing : Bool) (k : K) (files : List (File T))
    (s : St K) (h : run interp jit keepGoing k files = .ok s) : s.total = (chosen files).length ∧ s.mismatches = 0 := by
  unfold run at h
  split at h
  · cases h
  · rcases runFiles_eq interp jit keepGoing (s := { backend := k }) (s' := { backend := k }) ⟨rfl, rfl, rfl⟩ files with
      ⟨h1, _⟩ | ⟨r, r', h1, h2, _, ht, _⟩
    · rw [h1] at h; cases h
    · rw [h1] at h
      dsimp only at h
      split at h
      · cases h
      · rename_i hm
        cases h
        refine ⟨?_, by omega⟩
        cases keepGoing with
        | true =>
          obtain ⟨q, hq, hl, _⟩ := runList_keep interp jit { backend := k } (chosen files)
          rw [h2] at hq; cases hq
          rw [ht, hl]; simp
        | false =>
          rcases runList_stop interp jit { backend := k } (chosen files) with ⟨_, q, hq, hl, _⟩ | ⟨_, hr⟩
          · rw [h2] at hq; cases hq
            rw [ht, hl]; simp
          · rw [h2] at hr; cases hr

/-- C72: kept going, it goes through all chosen tests and counts those that differ. -/
theorem C72_keep_going (interp : T → Snap B H) (jit : K → T → Snap B H × K) (k : K) (files : List (File T)) :
    ∃ s, runFiles interp jit true { backend := k } files = some s ∧ s.total = (chosen files).length ∧
      s.mismatches = disagreements interp jit k (chosen files) := by
  obtain ⟨q, hq, hl, hm⟩ := runList_keep interp jit { backend := k } (chosen files)
  rcases runFiles_eq interp jit true (s := { backend := k }) (s' := { backend := k }) ⟨rfl, rfl, rfl⟩ files with
    ⟨_, h2⟩ | ⟨r, r', h1, h2, _, ht, hs⟩
  · rw [h2] at hq; cases hq
  · rw [h2] at hq; cases hq
    exact ⟨r, h1, by rw [ht, hl]; simp, by rw [hs, hm]; simp⟩

/-- The full claim: if it ends well, every file that is not skipped by name is a suite that was compared. -/
def C72_all_files (B H K T : Type) [DecidableEq B] [DecidableEq H] : Prop :=
  ∀ (interp : T → Snap B H) (jit : K → T → Snap B H × K) (keepGoing : Bool) (k : K) (files : List (File T)) (s : St K),
    run interp jit keepGoing k files = .ok s → ∀ f ∈ files, f = .skipped ∨ ∃ us, f = .suite us

/-- C72: it is false: a file that cannot be read or parsed is passed over, and the command ends well. -/
theorem C72_all_files_fails : ¬ C72_all_files Unit Unit Unit Unit := by
  intro h
  rcases h (fun _ => snapshot (.revert () 0) () ()) (fun k _ => (snapshot (.revert () 0) () (), k)) false ()
    [.unparsable] _ rfl .unparsable (by simp) with h | ⟨us, h⟩ <;> cases h

/-- C72: what can be seen of it: the printed numbers of files are those of suites and of skipped files, so they add up to
the number of files exactly if none was passed over. Missing: that the command fails otherwise. -/
theorem C72_all_files_partial (interp : T → Snap B H) (jit : K → T → Snap B H × K) (keepGoing : Bool) (k : K)
    (files : List (File T)) (s : St K) (h : run interp jit keepGoing k files = .ok s) :
    s.files = suites files ∧ s.skipped = skips files ∧
    (s.files + s.skipped = files.length ↔ ∀ f ∈ files, f = .skipped ∨ ∃ us, f = .suite us) := by
  unfold run at h
  split at h
  · cases h
  · cases hr : runFiles interp jit keepGoing { backend := k } files with
    | none => rw [hr] at h; cases h
    | some r =>
      rw [hr] at h
      dsimp only at h
      split at h
      · cases h
      · cases h
        obtain ⟨h1, h2⟩ := runFiles_files interp jit keepGoing _ _ _ hr
        simp only [Nat.zero_add] at h1 h2
        exact ⟨h1, h2, by rw [h1, h2]; exact suites_skips files⟩

end

/-- Three tests: the second has no transaction and the third is run by code that takes one gas less once two tests ran. -/
private def sampleInterp (t : Nat) : Snap (List Nat) Nat := snapshot (.success ['S', 't', 'o', 'p'] [t] (21000 + t)) t 0

private def sampleJit (k t : Nat) : Snap (List Nat) Nat × Nat :=
  (snapshot (.success ['S', 't', 'o', 'p'] [t] (if k < 1 then 21000 + t else 20999 + t)) t 0, k + 1)

private def sampleFiles : List (File Nat) :=
  [.skipped, .suite [⟨true, [⟨false, true, [⟨true, 1⟩, ⟨false, 2⟩, ⟨true, 3⟩]⟩, ⟨true, true, [⟨true, 4⟩]⟩]⟩,
    ⟨false, [⟨false, true, [⟨true, 5⟩]⟩]⟩], .unreadable]

example : chosen sampleFiles = [1, 3] ∧ run sampleInterp sampleJit false 0 sampleFiles = .failure ∧
    runFiles sampleInterp sampleJit true { backend := 0 } sampleFiles =
      some { backend := 2, total := 2, mismatches := 1, files := 1, skipped := 1 } ∧
    compare (sampleInterp 3) (sampleJit 1 3).1 = [.gasUsed] := by decide

example : run sampleInterp (fun k t => (sampleInterp t, k + 1)) false 0 sampleFiles =
    .ok { backend := 2, total := 2, mismatches := 0, files := 1, skipped := 1 } := by decide

/-! ## C73: benchmarks -/

section
variable {H F : Type} [DecidableEq H] (hash : List UInt8 → H) (compile : List UInt8 → F)

/-- C73: if the functions that the caller brings are compiled from code with the hash they are under, every contract of a
loaded benchmark is run by a function compiled from code with its hash, and so is every hash that has a function. -/
theorem C73_load (functions pending : List (H × F)) (codes : List (List UInt8))
    (hf : ∀ e ∈ functions, ∃ c, hash c = e.1 ∧ e.2 = compile c)
    (hp : ∀ e ∈ pending, ∃ c, hash c = e.1 ∧ e.2 = compile c) :
    let m := loadPending compile functions pending (codes.map fun c => ⟨c, hash c⟩)
    Serves hash compile (get m) codes ∧ ∀ h f, get m h = some f → ∃ c, hash c = h ∧ f = compile c := by
  intro m
  obtain ⟨h1, h2, h3⟩ := translateAll_mem compile (functions.map (·.1) ++ pending.map (·.1)) pending
    (codes.map fun c => (⟨c, hash c⟩ : Acct H))
  have hin : ∀ e ∈ translateAll compile (functions.map (·.1) ++ pending.map (·.1)) pending
      (codes.map fun c => (⟨c, hash c⟩ : Acct H)), ∃ c, hash c = e.1 ∧ e.2 = compile c := by
    intro e he
    rcases h1 e he with h | ⟨a, ha, _, rfl⟩
    · exact hp e h
    · obtain ⟨c, _, rfl⟩ := List.mem_map.1 ha
      exact ⟨c, rfl, rfl⟩
  have hget : ∀ h f, get functions h = some f → ∃ c, hash c = h ∧ f = compile c := by
    intro h f e
    unfold get at e
    obtain ⟨x, hx, rfl⟩ := Option.map_eq_some_iff.1 e
    obtain ⟨c, hc, hc'⟩ := hf x (List.mem_of_find?_eq_some hx)
    have := List.find?_some hx
    exact ⟨c, by rw [hc]; simpa using this, hc'⟩
  constructor
  · intro c hc hne
    rcases get_foldl (translateAll compile (functions.map (·.1) ++ pending.map (·.1)) pending
      (codes.map fun c => (⟨c, hash c⟩ : Acct H))) functions (hash c) with ⟨f, hm, hg⟩ | ⟨hn, hg⟩
    · obtain ⟨c', h', e'⟩ := hin _ hm
      refine ⟨c', h', ?_⟩
      rw [← e']; exact hg
    · rcases h3 ⟨c, hash c⟩ (List.mem_map.2 ⟨c, hc, rfl⟩) hne with hs | hs
      · rcases List.mem_append.1 hs with hs | hs
        · obtain ⟨f, hgf, _⟩ := get_of_mem hs
          obtain ⟨c', h', e'⟩ := hget _ _ hgf
          refine ⟨c', h', ?_⟩
          rw [← e', ← hgf]; exact hg
        · obtain ⟨e, he, he'⟩ := List.mem_map.1 hs
          exact absurd (List.mem_map.2 ⟨e, h2 e he, he'⟩) hn
      · exact absurd hs hn
  · intro h f e
    rcases get_foldl (translateAll compile (functions.map (·.1) ++ pending.map (·.1)) pending
      (codes.map fun c => (⟨c, hash c⟩ : Acct H))) functions h with ⟨g, hm, hg⟩ | ⟨_, hg⟩
    · have hfg : f = g := Option.some.inj (e.symm.trans hg)
      obtain ⟨c', h', e'⟩ := hin _ hm
      exact ⟨c', h', hfg ▸ e'⟩
    · exact hget h f (hg.symm.trans e)

/-- C73: nothing else is compiled: a hash with a function is one the caller brought or that of a contract with code. -/
theorem C73_load_only (functions pending : List (H × F)) (codes : List (List UInt8)) (h : H) (f : F)
    (hg : get (loadPending compile functions pending (codes.map fun c => ⟨c, hash c⟩)) h = some f) :
    h ∈ functions.map (·.1) ∨ h ∈ pending.map (·.1) ∨ ∃ c ∈ codes, c ≠ [] ∧ hash c = h := by
  obtain ⟨h1, _, _⟩ := translateAll_mem compile (functions.map (·.1) ++ pending.map (·.1)) pending
    (codes.map fun c => (⟨c, hash c⟩ : Acct H))
  rcases get_foldl (translateAll compile (functions.map (·.1) ++ pending.map (·.1)) pending
      (codes.map fun c => (⟨c, hash c⟩ : Acct H))) functions h with ⟨g, hm, _⟩ | ⟨_, hn⟩
  · rcases h1 _ hm with hm | ⟨a, ha, hne, e⟩
    · exact .inr (.inl (List.mem_map.2 ⟨_, hm, rfl⟩))
    · obtain ⟨c, hc, rfl⟩ := List.mem_map.1 ha
      exact .inr (.inr ⟨c, hc, hne, (congrArg Prod.fst e).symm⟩)
  · have hf := hn.symm.trans hg
    unfold get at hf
    obtain ⟨x, hx, _⟩ := Option.map_eq_some_iff.1 hf
    have := List.find?_some hx
    exact .inl (List.mem_map.2 ⟨x, List.mem_of_find?_eq_some hx, by simpa using this⟩)

/-- C73: with a hash under which no two codes clash, it is the function compiled from the contract's own code. -/
theorem C73_load_own (functions pending : List (H × F)) (codes : List (List UInt8))
    (hinj : ∀ c c', hash c = hash c' → c = c')
    (hf : ∀ e ∈ functions, ∃ c, hash c = e.1 ∧ e.2 = compile c)
    (hp : ∀ e ∈ pending, ∃ c, hash c = e.1 ∧ e.2 = compile c) (c : List UInt8) (hc : c ∈ codes) (hne : c ≠ []) :
    get (loadPending compile functions pending (codes.map fun c => ⟨c, hash c⟩)) (hash c) = some (compile c) := by
  obtain ⟨c', h', e⟩ := (C73_load hash compile functions pending codes hf hp).1 c hc hne
  rw [e, hinj _ _ h']

/-- The full claim for a library compiled from `entry`: every contract is run by a function compiled from code with its
hash. -/
def C73_library (H F : Type) [DecidableEq H] : Prop :=
  ∀ (hash : List UInt8 → H) (compile : List UInt8 → F) (entry : List UInt8) (codes : List (List UInt8)),
    Serves hash compile (get (loadLibrary (compile entry) [] [] (codes.map fun c => ⟨c, hash c⟩))) codes

/-- C73: it is false: the one function is put under the hash of every contract. -/
theorem C73_library_fails : ¬ C73_library (List UInt8) (List UInt8) := by
  intro h
  obtain ⟨c', h1, h2⟩ := h id id [1] [[1], [2]] [2] (by simp) (by simp)
  have h1 : c' = [2] := h1
  subst h1
  revert h2
  decide

/-- C73: the function of the library is what runs every contract with code; that is right if all of them have the hash of
the code the library was compiled from. Missing: benchmarks with a second contract. -/
theorem C73_library_partial (entry : List UInt8) (codes : List (List UInt8)) :
    let m := loadLibrary (compile entry) [] [] (codes.map fun c => (⟨c, hash c⟩ : Acct H))
    (∀ c ∈ codes, c ≠ [] → get m (hash c) = some (compile entry)) ∧
    ((∀ c ∈ codes, c ≠ [] → hash c = hash entry) → Serves hash compile (get m) codes) := by
  intro m
  have h : ∀ c ∈ codes, c ≠ [] → get m (hash c) = some (compile entry) := fun c hc hne =>
    loadLibrary_get (compile entry) [] [] _ (by simp) (hash c) (.inr ⟨⟨c, hash c⟩, List.mem_map.2 ⟨c, hc, rfl⟩, hne, rfl⟩)
  exact ⟨h, fun he c hc hne => ⟨entry, (he c hc hne).symm, h c hc hne⟩⟩

end

/-- The full claim: a benchmark that passes the sanity check ends alike under the interpreter and compiled. -/
def C73_sanity (B : Type) : Prop :=
  ∀ (assertSuccess : Bool) (interp jit : Res B), sanityCheck assertSuccess interp jit = true → interp = jit

/-- C73: it is false: only success is compared. -/
theorem C73_sanity_fails : ¬ C73_sanity Nat := by
  intro h
  have := h true (.success ['S', 't', 'o', 'p'] 1 21000) (.success ['R', 'e', 't', 'u', 'r', 'n'] 2 50000) (by decide)
  cases this

/-- C73: what it guarantees: both give a result, both succeed or neither does, and with `assert_success` both do.
Missing: that output, gas and the reason agree. -/
theorem C73_sanity_partial {B : Type} (assertSuccess : Bool) (interp jit : Res B) :
    sanityCheck assertSuccess interp jit = true ↔
      (∀ e, interp ≠ .error e) ∧ (∀ e, jit ≠ .error e) ∧
      ((∃ r o g, interp = .success r o g) ↔ ∃ r o g, jit = .success r o g) ∧
      (assertSuccess = true → ∃ r o g, interp = .success r o g) := by
  cases assertSuccess <;> cases interp <;> cases jit <;> simp [sanityCheck, Res.isError, Res.isSuccess]

example : get (loadPending (F := List UInt8) (H := Nat) id [(1, [7])] [(2, [7, 7])]
    ([[7], [], [7, 7], [1, 2, 3], [1, 2, 3]].map fun c => ⟨c, c.length⟩)) 3 = some [1, 2, 3] := by decide

example : get (loadPending (F := List UInt8) (H := Nat) id [(1, [7])] [(2, [7, 7])]
    ([[7], [], [7, 7], [1, 2, 3], [1, 2, 3]].map fun c => ⟨c, c.length⟩)) 0 = none := by decide

example : get (loadLibrary (F := List UInt8) (H := Nat) [7] [] [] ([[7], [], [7]].map fun c => ⟨c, c.length⟩)) 1 =
    some [7] := by decide

example : sanityCheck false (.revert 5 30000) (.halt ['O', 'o', 'G'] 40000) = true ∧
    sanityCheck false (.revert 5 30000) (.success ['S', 't', 'o', 'p'] 5 30000) = false ∧
    sanityCheck true (.revert 5 30000) (.revert 5 30000) = false := by decide

end Verif.Diff
