import Verif.Spec.Diff
/-!
# Lemmas on comparing the interpreter with compiled code
-/

namespace Verif.Diff
open Spec

theorem display_inj {a b : Status} (h : a.display = b.display) : a = b := by
  cases a <;> cases b <;> simp_all [Status.display]

theorem mem_compare {B H : Type} [DecidableEq B] [DecidableEq H] (a b : Snap B H) (f : Field) :
    f ∈ compare a b ↔ match f with
      | .status => a.status ≠ b.status
      | .output => a.output ≠ b.output
      | .gasUsed => a.gasUsed ≠ b.gasUsed
      | .stateRoot => a.stateRoot ≠ b.stateRoot
      | .logsRoot => a.logsRoot ≠ b.logsRoot := by
  have hd : a.status.display = b.status.display ↔ a.status = b.status := ⟨display_inj, fun h => by rw [h]⟩
  unfold compare
  rw [List.mem_append, List.mem_append, List.mem_append, List.mem_append]
  by_cases h1 : a.status = b.status <;> by_cases h2 : a.output = b.output <;> by_cases h3 : a.gasUsed = b.gasUsed <;>
    by_cases h4 : a.stateRoot = b.stateRoot <;> by_cases h5 : a.logsRoot = b.logsRoot <;>
    cases f <;> simp [hd, h1, h2, h3, h4, h5]

theorem compare_nil {B H : Type} [DecidableEq B] [DecidableEq H] (a b : Snap B H) : compare a b = [] ↔ a = b := by
  constructor
  · intro h
    have hn : ∀ f, f ∉ compare a b := by rw [h]; simp
    have h1 := hn .status; have h2 := hn .output; have h3 := hn .gasUsed; have h4 := hn .stateRoot; have h5 := hn .logsRoot
    rw [mem_compare] at h1 h2 h3 h4 h5
    cases a; cases b
    simp_all
  · rintro rfl
    simp [compare]

theorem suites_skips_le {T : Type} (files : List (File T)) : suites files + skips files ≤ files.length := by
  induction files with
  | nil => simp [suites, skips]
  | cons f fs ih =>
    unfold suites skips at *
    cases f <;> simp only [List.filter_cons, if_true, Bool.false_eq_true, if_false, List.length_cons] <;> omega

theorem suites_skips {T : Type} (files : List (File T)) :
    suites files + skips files = files.length ↔ ∀ f ∈ files, f = .skipped ∨ ∃ us, f = .suite us := by
  induction files with
  | nil => simp [suites, skips]
  | cons f fs ih =>
    have hl := suites_skips_le fs
    rw [List.forall_mem_cons, ← ih]
    unfold suites skips at *
    cases f <;> simp only [List.filter_cons, if_true, Bool.false_eq_true, if_false, List.length_cons, reduceCtorEq, exists_const,
      or_self, false_and, iff_false, true_or, true_and, false_or, File.suite.injEq, exists_eq'] <;> omega

section
variable {B H K T : Type} [DecidableEq B] [DecidableEq H] (interp : T → Snap B H) (jit : K → T → Snap B H × K)
  (keepGoing : Bool)

/-- All loops in one. -/
def runList (s : St K) : List T → Option (St K)
  | [] => some s
  | t :: ts =>
    let r := jit s.backend t
    let s := { s with backend := r.2, total := s.total + 1 }
    if interp t = r.1 then runList s ts
    else if keepGoing then runList { s with mismatches := s.mismatches + 1 } ts else none

theorem runList_append (s : St K) (a b : List T) :
    runList interp jit keepGoing s (a ++ b) =
      (runList interp jit keepGoing s a).bind fun s => runList interp jit keepGoing s b := by
  induction a generalizing s with
  | nil => rfl
  | cons t ts ih =>
    rw [List.cons_append, runList, runList]
    dsimp only
    split
    · exact ih _
    · split
      · exact ih _
      · rfl

theorem runTests_eq (s : St K) (ts : List (Test T)) :
    runTests interp jit keepGoing s ts = runList interp jit keepGoing s ((ts.filter (·.txOk)).map (·.test)) := by
  induction ts generalizing s with
  | nil => rfl
  | cons t ts ih =>
    rw [runTests]
    cases ht : t.txOk with
    | false => simp [ht, ih]
    | true =>
      have hl : ((t :: ts).filter (·.txOk)).map (·.test) = t.test :: (ts.filter (·.txOk)).map (·.test) := by simp [ht]
      rw [hl, runList]
      dsimp only
      by_cases h : interp t.test = (jit s.backend t.test).1
      · rw [if_pos h]
        simp only [(compare_nil _ _).2 h, List.isEmpty_nil, if_true, Bool.not_true, Bool.false_eq_true, if_false]
        exact ih _
      · rw [if_neg h]
        have hc : (compare (interp t.test) (jit s.backend t.test).1).isEmpty = false := by
          cases hc : compare (interp t.test) (jit s.backend t.test).1 with
          | nil => exact absurd ((compare_nil _ _).1 hc) h
          | cons _ _ => rfl
        simp only [hc, Bool.not_true, Bool.false_eq_true, if_false]
        cases keepGoing with
        | false => rfl
        | true => exact ih _

theorem runPosts_eq (s : St K) (ps : List (Post T)) :
    runPosts interp jit keepGoing s ps = runList interp jit keepGoing s
      ((ps.filter fun p => !p.constantinople && p.wanted).flatMap fun p => (p.tests.filter (·.txOk)).map (·.test)) := by
  induction ps generalizing s with
  | nil => rfl
  | cons p ps ih =>
    rw [runPosts]
    cases hp : (!p.constantinople && p.wanted) with
    | false =>
      have : (p.constantinople || !p.wanted) = true := by
        revert hp; cases p.constantinople <;> cases p.wanted <;> simp
      rw [if_pos this, List.filter_cons_of_neg (by simp [hp]), ih]
    | true =>
      have : (p.constantinople || !p.wanted) = false := by
        revert hp; cases p.constantinople <;> cases p.wanted <;> simp
      rw [this, List.filter_cons_of_pos (by simp [hp]), List.flatMap_cons, runList_append, runTests_eq]
      simp only [Bool.false_eq_true, if_false]
      congr 1
      funext s
      exact ih s

theorem runUnits_eq (s : St K) (us : List (DUnit T)) :
    runUnits interp jit keepGoing s us = runList interp jit keepGoing s
      ((us.filter (·.wanted)).flatMap fun u =>
        (u.post.filter fun p => !p.constantinople && p.wanted).flatMap fun p => (p.tests.filter (·.txOk)).map (·.test)) := by
  induction us generalizing s with
  | nil => rfl
  | cons u us ih =>
    rw [runUnits]
    cases hu : u.wanted with
    | false => rw [List.filter_cons_of_neg (by simp [hu]), ← ih]; rfl
    | true =>
      rw [List.filter_cons_of_pos (by simp [hu]), List.flatMap_cons, runList_append, runPosts_eq]
      simp only [Bool.not_true, Bool.false_eq_true, if_false]
      congr 1
      funext s
      exact ih s

/-- A result with other counts of files. -/
def St.same (a b : St K) : Prop := a.backend = b.backend ∧ a.total = b.total ∧ a.mismatches = b.mismatches

theorem runList_same {s s' : St K} (h : s.same s') (ts : List T) :
    (runList interp jit keepGoing s ts = none ∧ runList interp jit keepGoing s' ts = none) ∨
    ∃ r r', runList interp jit keepGoing s ts = some r ∧ runList interp jit keepGoing s' ts = some r' ∧ r.same r' := by
  induction ts generalizing s s' with
  | nil => exact .inr ⟨s, s', rfl, rfl, h⟩
  | cons t ts ih =>
    obtain ⟨h1, h2, h3⟩ := h
    rw [runList, runList]
    dsimp only
    rw [← h1]
    split
    · exact ih ⟨rfl, by rw [h2], h3⟩
    · cases keepGoing with
      | true => exact ih ⟨rfl, by rw [h2], by rw [h3]⟩
      | false => exact .inl ⟨rfl, rfl⟩

theorem runFiles_eq {s s' : St K} (h : s.same s') (fs : List (File T)) :
    (runFiles interp jit keepGoing s fs = none ∧ runList interp jit keepGoing s' (chosen fs) = none) ∨
    ∃ r r', runFiles interp jit keepGoing s fs = some r ∧ runList interp jit keepGoing s' (chosen fs) = some r' ∧ r.same r' := by
  induction fs generalizing s s' with
  | nil => exact .inr ⟨s, s', rfl, rfl, h⟩
  | cons f fs ih =>
    cases f with
    | skipped => exact ih (s := { s with skipped := s.skipped + 1 }) h
    | unreadable => exact ih h
    | unparsable => exact ih h
    | suite us =>
      rw [runFiles, runUnits_eq]
      have hc : chosen (.suite us :: fs) = ((us.filter (·.wanted)).flatMap fun u =>
        (u.post.filter fun p => !p.constantinople && p.wanted).flatMap fun p => (p.tests.filter (·.txOk)).map (·.test)) ++
        chosen fs := by rfl
      rw [hc, runList_append]
      rcases runList_same interp jit keepGoing (s := { s with files := s.files + 1 }) (s' := s') h
        ((us.filter (·.wanted)).flatMap fun u => (u.post.filter fun p => !p.constantinople && p.wanted).flatMap fun p =>
          (p.tests.filter (·.txOk)).map (·.test)) with ⟨h1, h2⟩ | ⟨r, r', h1, h2, h3⟩
      · rw [h1, h2]; exact .inl ⟨rfl, rfl⟩
      · rw [h1, h2]; exact ih h3

theorem runList_files (s r : St K) (ts : List T) (h : runList interp jit keepGoing s ts = some r) :
    r.files = s.files ∧ r.skipped = s.skipped := by
  induction ts generalizing s with
  | nil => cases h; exact ⟨rfl, rfl⟩
  | cons t ts ih =>
    rw [runList] at h
    dsimp only at h
    split at h
    · exact ih { s with backend := (jit s.backend t).2, total := s.total + 1 } h
    · split at h
      · exact ih { s with backend := (jit s.backend t).2, total := s.total + 1, mismatches := s.mismatches + 1 } h
      · cases h

theorem runFiles_files (s r : St K) (fs : List (File T)) (h : runFiles interp jit keepGoing s fs = some r) :
    r.files = s.files + suites fs ∧ r.skipped = s.skipped + skips fs := by
  induction fs generalizing s with
  | nil => cases h; exact ⟨rfl, rfl⟩
  | cons f fs ih =>
    unfold suites skips at ih ⊢
    cases f with
    | skipped =>
      obtain ⟨h1, h2⟩ := ih _ h
      exact ⟨by simpa using h1, by simp only [List.filter_cons, if_true, List.length_cons, h2]; omega⟩
    | unreadable => simpa using ih _ h
    | unparsable => simpa using ih _ h
    | suite us =>
      rw [runFiles, runUnits_eq] at h
      obtain ⟨q, hq, h⟩ := Option.bind_eq_some_iff.1 h
      obtain ⟨h1, h2⟩ := runList_files interp jit keepGoing _ _ _ hq
      obtain ⟨h3, h4⟩ := ih _ h
      exact ⟨by simp only [List.filter_cons, if_true, List.length_cons, h3, h1]; omega, by simpa [h2] using h4⟩

theorem runList_keep (s : St K) (ts : List T) : ∃ r, runList interp jit true s ts = some r ∧
    r.total = s.total + ts.length ∧ r.mismatches = s.mismatches + disagreements interp jit s.backend ts := by
  induction ts generalizing s with
  | nil => exact ⟨s, rfl, rfl, rfl⟩
  | cons t ts ih =>
    rw [runList, disagreements]
    dsimp only
    split
    · obtain ⟨r, h1, h2, h3⟩ := ih { s with backend := (jit s.backend t).2, total := s.total + 1 }
      exact ⟨r, h1, by rw [h2, List.length_cons]; simp only; omega, by rw [h3]; simp only; omega⟩
    · obtain ⟨r, h1, h2, h3⟩ := ih { s with backend := (jit s.backend t).2, total := s.total + 1, mismatches := s.mismatches + 1 }
      exact ⟨r, h1, by rw [h2, List.length_cons]; simp only; omega, by rw [h3]; simp only; omega⟩

theorem runList_stop (s : St K) (ts : List T) :
    (Agrees interp jit s.backend ts ∧ ∃ r, runList interp jit false s ts = some r ∧ r.total = s.total + ts.length ∧
      r.mismatches = s.mismatches) ∨
    (¬ Agrees interp jit s.backend ts ∧ runList interp jit false s ts = none) := by
  induction ts generalizing s with
  | nil => exact .inl ⟨trivial, s, rfl, rfl, rfl⟩
  | cons t ts ih =>
    rw [runList]
    unfold Agrees
    dsimp only
    split
    · rename_i h
      rcases ih { s with backend := (jit s.backend t).2, total := s.total + 1 } with ⟨h1, r, h2, h3, h4⟩ | ⟨h1, h2⟩
      · exact .inl ⟨⟨h, h1⟩, r, h2, by rw [h3, List.length_cons]; simp only; omega, h4⟩
      · exact .inr ⟨fun h => h1 h.2, h2⟩
    · rename_i h
      exact .inr ⟨fun h' => h h'.1, rfl⟩

theorem disagreements_zero (k : K) (ts : List T) : disagreements interp jit k ts = 0 ↔ Agrees interp jit k ts := by
  induction ts generalizing k with
  | nil => simp [disagreements, Agrees]
  | cons t ts ih =>
    unfold disagreements Agrees
    rw [← ih]
    split
    · rename_i h; simp [h]
    · rename_i h; simp [h]

end

section
variable {H F : Type} [DecidableEq H]

theorem get_insert (m : List (H × F)) (h h' : H) (f : F) : get (insert m h f) h' = if h = h' then some f else get m h' := by
  unfold get insert
  by_cases e : h = h'
  · simp [e]
  · rw [if_neg e, List.find?_cons_of_neg (by simp [e])]
    congr 1
    induction m with
    | nil => rfl
    | cons x xs ih =>
      by_cases hx : x.1 = h
      · rw [List.filter_cons_of_neg (by simp [hx]), ih, List.find?_cons_of_neg (by simp [hx, e])]
      · rw [List.filter_cons_of_pos (by simp [hx])]
        by_cases hy : x.1 = h'
        · rw [List.find?_cons_of_pos (by simp [hy]), List.find?_cons_of_pos (by simp [hy])]
        · rw [List.find?_cons_of_neg (by simp [hy]), List.find?_cons_of_neg (by simp [hy]), ih]

theorem get_of_mem {m : List (H × F)} {h : H} (hm : h ∈ m.map (·.1)) : ∃ f, get m h = some f ∧ (h, f) ∈ m := by
  induction m with
  | nil => simp at hm
  | cons x xs ih =>
    unfold get
    by_cases hx : x.1 = h
    · rw [List.find?_cons_of_pos (by simp [hx])]
      exact ⟨x.2, rfl, by rw [← hx]; simp⟩
    · rw [List.find?_cons_of_neg (by simp [hx])]
      obtain ⟨f, h1, h2⟩ := ih (by simpa [Ne.symm hx] using hm)
      exact ⟨f, h1, List.mem_cons_of_mem _ h2⟩

/-- What is bound after inserting a list comes from the list or was there. -/
theorem get_foldl (l m : List (H × F)) (h : H) :
    (∃ f, (h, f) ∈ l ∧ get (l.foldl (fun m e => insert m e.1 e.2) m) h = some f) ∨
    (h ∉ l.map (·.1) ∧ get (l.foldl (fun m e => insert m e.1 e.2) m) h = get m h) := by
  induction l generalizing m with
  | nil => exact .inr ⟨by simp, rfl⟩
  | cons x xs ih =>
    rw [List.foldl_cons]
    rcases ih (insert m x.1 x.2) with ⟨f, h1, h2⟩ | ⟨h1, h2⟩
    · exact .inl ⟨f, List.mem_cons_of_mem _ h1, h2⟩
    · rw [get_insert] at h2
      by_cases e : x.1 = h
      · rw [if_pos e] at h2
        exact .inl ⟨x.2, by rw [← e]; simp, h2⟩
      · rw [if_neg e] at h2
        exact .inr ⟨by simp only [List.map_cons, List.mem_cons, not_or]; exact ⟨fun h => e h.symm, h1⟩, h2⟩

theorem translateAll_mem (translate : List UInt8 → F) (seen : List H) (pending : List (H × F)) (as : List (Acct H)) :
    (∀ e ∈ translateAll translate seen pending as, e ∈ pending ∨ ∃ a ∈ as, a.code ≠ [] ∧ e = (a.hash, translate a.code)) ∧
    (∀ e ∈ pending, e ∈ translateAll translate seen pending as) ∧
    (∀ a ∈ as, a.code ≠ [] → a.hash ∈ seen ∨ a.hash ∈ (translateAll translate seen pending as).map (·.1)) := by
  induction as generalizing seen pending with
  | nil => exact ⟨fun e h => .inl h, fun e h => h, by simp⟩
  | cons a as ih =>
    rw [translateAll]
    split
    · rename_i hs
      obtain ⟨h1, h2, h3⟩ := ih seen pending
      refine ⟨fun e h => (h1 e h).imp id fun ⟨b, hb, e⟩ => ⟨b, List.mem_cons_of_mem _ hb, e⟩, h2, ?_⟩
      intro b hb hne
      rcases List.mem_cons.1 hb with rfl | hb
      · left
        simp only [Bool.or_eq_true, List.isEmpty_iff, decide_eq_true_eq] at hs
        exact hs.resolve_left hne
      · exact h3 b hb hne
    · rename_i hs
      obtain ⟨h1, h2, h3⟩ := ih (a.hash :: seen) (pending ++ [(a.hash, translate a.code)])
      have hmem := h2 (a.hash, translate a.code) (by simp)
      refine ⟨fun e h => ?_, fun e h => h2 e (by simp [h]), ?_⟩
      · rcases h1 e h with h | ⟨b, hb, e⟩
        · rcases List.mem_append.1 h with h | h
          · exact .inl h
          · exact .inr ⟨a, by simp, fun hn => hs (by simp [hn]), by simpa using h⟩
        · exact .inr ⟨b, List.mem_cons_of_mem _ hb, e⟩
      · intro b hb hne
        rcases List.mem_cons.1 hb with rfl | hb
        · exact .inr (List.mem_map.2 ⟨_, hmem, rfl⟩)
        · rcases h3 b hb hne with h | h
          · rcases List.mem_cons.1 h with h | h
            · right; rw [h]; exact List.mem_map.2 ⟨_, hmem, rfl⟩
            · exact .inl h
          · exact .inr h

theorem loadLibrary_get (symbol : F) (seen : List H) (m : List (H × F)) (as : List (Acct H))
    (hs : ∀ h ∈ seen, get m h = some symbol) :
    ∀ h, (h ∈ seen ∨ ∃ a ∈ as, a.code ≠ [] ∧ a.hash = h) → get (loadLibrary symbol seen m as) h = some symbol := by
  induction as generalizing seen m with
  | nil => intro h hh; exact hs h (hh.resolve_right (by simp))
  | cons a as ih =>
    intro h hh
    rw [loadLibrary]
    split
    · rename_i hx
      refine ih seen m hs h ?_
      rcases hh with hh | ⟨b, hb, hne, rfl⟩
      · exact .inl hh
      · rcases List.mem_cons.1 hb with rfl | hb
        · simp only [Bool.or_eq_true, List.isEmpty_iff, decide_eq_true_eq] at hx
          exact .inl (hx.resolve_left hne)
        · exact .inr ⟨b, hb, hne, rfl⟩
    · refine ih (a.hash :: seen) (insert m a.hash symbol) ?_ h ?_
      · intro h hh
        rw [get_insert]
        by_cases e : a.hash = h
        · rw [if_pos e]
        · rw [if_neg e]
          exact hs h ((List.mem_cons.1 hh).resolve_left (fun h => e h.symm))
      · rcases hh with hh | ⟨b, hb, hne, rfl⟩
        · exact .inl (List.mem_cons_of_mem _ hh)
        · rcases List.mem_cons.1 hb with rfl | hb
          · exact .inl (by simp)
          · exact .inr ⟨b, hb, hne, rfl⟩

end

end Verif.Diff
