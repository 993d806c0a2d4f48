import Verif.Lemmas.Redirect
/-!
# Deduplication runs to completion
-/

namespace Verif

/-! ## Counting what is still live -/

theorem count_false_le : ∀ (a b : List Bool), a.length = b.length →
    (∀ i : Nat, a[i]? = some true → b[i]? = some true) →
    b.countP (!·) ≤ a.countP (!·) ∧
      ((∃ i : Nat, a[i]? = some false ∧ b[i]? = some true) → b.countP (!·) < a.countP (!·))
  | [], [], _, _ => ⟨Nat.le_refl _, fun ⟨i, h, _⟩ => by simp at h⟩
  | [], _ :: _, h, _ => by simp at h
  | _ :: _, [], h, _ => by simp at h
  | x :: a, y :: b, hl, h => by
    have ih := count_false_le a b (by simpa using hl) (fun i hi => by simpa using h (i + 1) (by simpa using hi))
    have h0 : x = true → y = true := fun hx => by simpa using h 0 (by simp [hx])
    have e1 : (y :: b).countP (!·) = b.countP (!·) + if (!y) = true then 1 else 0 := List.countP_cons
    have e2 : (x :: a).countP (!·) = a.countP (!·) + if (!x) = true then 1 else 0 := List.countP_cons
    rw [e1, e2]
    refine ⟨?_, ?_⟩
    · have := ih.1
      cases x <;> cases y <;> simp_all <;> omega
    · rintro ⟨i, h1, h2⟩
      cases i with
      | zero =>
        simp only [List.getElem?_cons_zero, Option.some.injEq] at h1 h2
        subst h1; subst h2
        have := ih.1
        simp; omega
      | succ i =>
        have := ih.2 ⟨i, by simpa using h1, by simpa using h2⟩
        cases x <;> cases y <;> simp_all <;> omega

/-- Dead instructions stay dead. -/
structure DeadMono (l l' : List InstData) : Prop where
  len : l'.length = l.length
  dead : ∀ (i : Nat) d', l'[i]? = some d' → ∃ d, l[i]? = some d ∧ d'.opcode = d.opcode ∧
    d'.flags.multiJump = d.flags.multiJump ∧ (d.flags.deadCode = true → d'.flags.deadCode = true)

theorem DeadMono.refl (l : List InstData) : DeadMono l l :=
  ⟨rfl, fun _ d h => ⟨d, h, rfl, rfl, id⟩⟩

theorem DeadMono.trans {a b c : List InstData} (h : DeadMono a b) (h' : DeadMono b c) : DeadMono a c := by
  refine ⟨h'.len.trans h.len, fun i d hd => ?_⟩
  obtain ⟨d1, g1, g2, g3, g4⟩ := h'.dead i d hd
  obtain ⟨d2, k1, k2, k3, k4⟩ := h.dead i d1 g1
  exact ⟨d2, k1, g2.trans k2, g3.trans k3, fun x => g4 (k4 x)⟩

/-- The number of live instructions. -/
def liveCount (l : List InstData) : Nat := (l.map fun d => d.flags.deadCode).countP (!·)

/-- The number of live jumps. -/
def liveJumps (l : List InstData) : Nat := (l.map fun d => d.flags.deadCode || !d.isJump).countP (!·)

theorem DeadMono.liveCount {l l' : List InstData} (h : DeadMono l l') : liveCount l' ≤ liveCount l ∧
    ((∃ (i : Nat) (d d' : InstData), l[i]? = some d ∧ d.flags.deadCode = false ∧ l'[i]? = some d' ∧
      d'.flags.deadCode = true) → Verif.liveCount l' < Verif.liveCount l) := by
  have hc := count_false_le (l.map fun d => d.flags.deadCode) (l'.map fun d => d.flags.deadCode)
    (by simp [h.len]) (fun i hi => by
      rw [List.getElem?_map] at hi ⊢
      obtain ⟨d, h1, h2⟩ := Option.map_eq_some_iff.1 hi
      have hl : i < l'.length := by
        rw [h.len]; exact (List.getElem?_eq_some_iff.1 h1).1
      obtain ⟨d1, g1, _, _, g4⟩ := h.dead i _ (List.getElem?_eq_getElem hl)
      rw [h1] at g1; cases g1
      rw [List.getElem?_eq_getElem hl, Option.map_some, g4 h2])
  refine ⟨hc.1, ?_⟩
  rintro ⟨i, d, d', h1, h2, h3, h4⟩
  exact hc.2 ⟨i, by rw [List.getElem?_map, h1, Option.map_some, h2],
    by rw [List.getElem?_map, h3, Option.map_some, h4]⟩

theorem isJump_of_op {d d' : InstData} (h : d'.opcode = d.opcode) : d'.isJump = d.isJump := by
  unfold InstData.isJump; rw [h]

theorem DeadMono.liveJumps {l l' : List InstData} (h : DeadMono l l') : liveJumps l' ≤ liveJumps l ∧
    ((∃ (i : Nat) (d d' : InstData), l[i]? = some d ∧ d.flags.deadCode = false ∧ d.isJump = true ∧
      l'[i]? = some d' ∧ d'.flags.deadCode = true) → Verif.liveJumps l' < Verif.liveJumps l) := by
  have hc := count_false_le (l.map fun d => d.flags.deadCode || !d.isJump)
    (l'.map fun d => d.flags.deadCode || !d.isJump)
    (by simp [h.len]) (fun i hi => by
      rw [List.getElem?_map] at hi ⊢
      obtain ⟨d, h1, h2⟩ := Option.map_eq_some_iff.1 hi
      have hl : i < l'.length := by
        rw [h.len]; exact (List.getElem?_eq_some_iff.1 h1).1
      obtain ⟨d1, g1, g2, _, g4⟩ := h.dead i _ (List.getElem?_eq_getElem hl)
      rw [h1] at g1; cases g1
      rw [List.getElem?_eq_getElem hl, Option.map_some, isJump_of_op g2]
      rw [Bool.or_eq_true] at h2
      rcases h2 with h2 | h2
      · rw [g4 h2]; rfl
      · rw [h2, Bool.or_true])
  refine ⟨hc.1, ?_⟩
  rintro ⟨i, d, d', h1, h2, h3, h4, h5⟩
  exact hc.2 ⟨i, by rw [List.getElem?_map, h1, Option.map_some, h2, h3]; rfl,
    by rw [List.getElem?_map, h4, Option.map_some, h5]; rfl⟩

/-! ## Dead-code marking completes -/

theorem markLoop_mono (dyn : Bool) (l : List InstData) : ∀ i k, DeadMono l (markLoop dyn i k l) ∧
    (markedJump l (markLoop dyn i k l) = true → ∃ (j : Nat) (d d' : InstData), l[j]? = some d ∧
      d.flags.deadCode = false ∧ d.isJump = true ∧ (markLoop dyn i k l)[j]? = some d' ∧
      d'.flags.deadCode = true) := by
  induction l with
  | nil => intro i k; cases k <;> exact ⟨.refl _, fun h => by simp [markLoop, markedJump] at h⟩
  | cons d ds ih =>
    have key : ∀ (d1 : InstData) (i : Nat) (k : Option (Option Nat)), d1.opcode = d.opcode →
        d1.flags.multiJump = d.flags.multiJump → (d.flags.deadCode = true → d1.flags.deadCode = true) →
        DeadMono (d :: ds) (d1 :: markLoop dyn i k ds) ∧
          (markedJump (d :: ds) (d1 :: markLoop dyn i k ds) = true →
            ∃ (j : Nat) (a a' : InstData), (d :: ds)[j]? = some a ∧ a.flags.deadCode = false ∧
              a.isJump = true ∧ (d1 :: markLoop dyn i k ds)[j]? = some a' ∧ a'.flags.deadCode = true) := by
      intro d1 i k h1 h2 h3
      obtain ⟨m, j⟩ := ih i k
      refine ⟨⟨by simp [m.len], fun n a ha => ?_⟩, fun h => ?_⟩
      · cases n with
        | zero =>
          simp only [List.getElem?_cons_zero, Option.some.injEq] at ha
          subst ha
          exact ⟨d, rfl, h1, h2, h3⟩
        | succ n => exact m.dead n a (by simpa using ha)
      · rw [markedJump, Bool.or_eq_true] at h
        rcases h with h | h
        · simp only [Bool.and_eq_true, Bool.not_eq_true'] at h
          exact ⟨0, d, d1, rfl, h.1.1, h.2, rfl, h.1.2⟩
        · obtain ⟨n, a, a', x1, x2, x3, x4, x5⟩ := j h
          exact ⟨n + 1, a, a', by simpa using x1, x2, x3, by simpa using x4, x5⟩
    intro i k
    cases k with
    | none =>
      rw [markLoop]
      dsimp only
      repeat' split
      all_goals exact key d _ _ rfl rfl id
    | some st =>
      rw [markLoop]
      split
      · exact key d _ _ rfl rfl id
      · exact key _ _ _ rfl rfl (fun _ => rfl)

theorem mapIdx_reach_mono (ts : List Nat) (l : List InstData) :
    DeadMono l (l.mapIdx fun i d => if d.isJumpdest then { d with reachable := ts.contains i } else d) ∧
    liveJumps (l.mapIdx fun i d => if d.isJumpdest then { d with reachable := ts.contains i } else d) =
      liveJumps l ∧
    liveCount (l.mapIdx fun i d => if d.isJumpdest then { d with reachable := ts.contains i } else d) =
      liveCount l := by
  refine ⟨⟨by simp, fun i d' h => ?_⟩, ?_, ?_⟩
  · rw [List.getElem?_mapIdx] at h
    obtain ⟨d, h1, rfl⟩ := Option.map_eq_some_iff.1 h
    refine ⟨d, h1, ?_⟩
    split <;> exact ⟨rfl, rfl, id⟩
  · unfold liveJumps
    congr 1
    apply List.ext_getElem?
    intro i
    simp only [List.getElem?_map, List.getElem?_mapIdx, Option.map_map]
    congr 1
    funext d
    simp only [Function.comp]
    split <;> rfl
  · unfold liveCount
    congr 1
    apply List.ext_getElem?
    intro i
    simp only [List.getElem?_map, List.getElem?_mapIdx, Option.map_map]
    congr 1
    funext d
    simp only [Function.comp]
    split <;> rfl

theorem mapM_follow_some {m : Redirects} (hm : Earlier m.get) (l : List Nat) :
    ∃ r, l.mapM (follow m) = some r := by
  induction l with
  | nil => exact ⟨[], rfl⟩
  | cons a l ih =>
    obtain ⟨r, hr⟩ := ih
    obtain ⟨e, he, _⟩ := follow_ends hm a
    exact ⟨e :: r, by rw [List.mapM_cons, he, hr]; rfl⟩

theorem reachableR_some {m : Redirects} (hm : Earlier m.get) (p : Prog) :
    ∃ p', p.reachableR m = some p' ∧ DeadMono p.insts p'.insts ∧ liveJumps p'.insts = liveJumps p.insts ∧
      p'.multi = p.multi ∧ p'.hasDyn = p.hasDyn := by
  obtain ⟨r, hr⟩ := mapM_follow_some hm (p.collect 0 p.insts)
  refine ⟨_, by rw [Prog.reachableR, hr]; rfl, ?_⟩
  obtain ⟨a, b, _⟩ := mapIdx_reach_mono r p.insts
  exact ⟨a, b, rfl, rfl⟩

theorem markDeadR_some {m : Redirects} (hm : Earlier m.get) (fuel : Nat) : ∀ p : Prog,
    liveJumps p.insts < fuel →
    ∃ p', markDeadR m fuel p = some p' ∧ DeadMono p.insts p'.insts ∧ p'.multi = p.multi := by
  induction fuel with
  | zero => intro p h; omega
  | succ n ih =>
    intro p h
    obtain ⟨mo, mj⟩ := markLoop_mono p.hasDyn p.insts 0 none
    rw [markDeadR]
    dsimp only
    by_cases hmark : markedJump p.insts (markLoop p.hasDyn 0 none p.insts) = true
    · rw [if_pos hmark]
      have hlt := mo.liveJumps.2 (mj hmark)
      obtain ⟨p1, h1, h2, h3, h4, _⟩ := reachableR_some hm
        ({ p with insts := markLoop p.hasDyn 0 none p.insts } : Prog).recomputeHasDyn
      rw [h1, Option.bind_some]
      obtain ⟨p2, g1, g2, g3⟩ := ih p1 (by
        rw [h3]
        show liveJumps (markLoop p.hasDyn 0 none p.insts) < n
        omega)
      exact ⟨p2, g1, (mo.trans h2).trans g2, g3.trans h4⟩
    · rw [if_neg hmark]
      exact ⟨_, rfl, mo, rfl⟩

theorem liveJumps_le (l : List InstData) : liveJumps l ≤ l.length := by
  unfold liveJumps
  refine Nat.le_trans List.countP_le_length (by simp)

theorem refresh_some {s : DState} (hm : Earlier s.redirects.get) :
    ∃ s', s.refresh = some s' ∧ DeadMono s.prog.insts s'.prog.insts ∧ s'.prog.multi = s.prog.multi ∧
      s'.ai = s.ai := by
  obtain ⟨p1, h1, h2, h3, h4, _⟩ := reachableR_some hm s.prog.recomputeHasDyn
  obtain ⟨p2, g1, g2, g3⟩ := markDeadR_some hm (p1.insts.length + 1) p1
    (Nat.lt_succ_of_le (liveJumps_le _))
  obtain ⟨m', c1, _⟩ := compress_ok hm
  refine ⟨{ s with prog := p2, redirects := m' }, ?_, h2.trans g2, g3.trans h4, rfl⟩
  rw [DState.refresh, h1, Option.bind_some, g1, Option.bind_some, c1]
  rfl

/-! ## A round completes -/

/-- Every live jump flagged as having several targets has them recorded. -/
def MultiLive (p : Prog) : Prop := ∀ (i : Nat) d, p.insts[i]? = some d → d.flags.deadCode = false →
  d.flags.multiJump = true → (p.multi.lookup i).isSome = true

theorem lookup_multiRemove (m : List (Nat × List Nat)) (i j : Nat) :
    (multiRemove m i).lookup j = if j = i then none else m.lookup j := by
  unfold multiRemove
  induction m with
  | nil => simp
  | cons a r ih =>
    obtain ⟨k, v⟩ := a
    rw [List.filter_cons]
    by_cases hk : k = i
    · subst hk
      rw [if_neg (by simp), ih, List.lookup_cons]
      by_cases hj : j = k
      · rw [if_pos hj, if_pos hj]
      · rw [if_neg hj, if_neg hj]
        have : (j == k) = false := by simpa using hj
        rw [this]
    · rw [if_pos (by simpa using hk), List.lookup_cons, List.lookup_cons, ih]
      by_cases hj : j = k
      · subst hj
        rw [if_neg hk]; simp [hk]
      · have : (j == k) = false := by simpa using hj
        rw [this]

theorem lookup_multiInsert (m : List (Nat × List Nat)) (i j : Nat) (ts : List Nat) :
    (multiInsert m i ts).lookup j = if j = i then some ts else m.lookup j := by
  unfold multiInsert
  rw [List.lookup_cons]
  by_cases hj : j = i
  · subst hj; simp
  · have h0 : (j == i) = false := by simpa using hj
    rw [h0, if_neg hj]
    have := lookup_multiRemove m i j
    rw [if_neg hj] at this
    exact this

theorem retarget_mono (dup canon : Nat) (p : Prog) (x : Nat × Nat) :
    DeadMono p.insts (retarget dup canon p x).insts ∧ (retarget dup canon p x).multi = p.multi := by
  refine ⟨⟨by simp [retarget, Prog.modify], fun i d' h => ?_⟩, rfl⟩
  unfold retarget Prog.modify at h
  dsimp only at h
  rw [List.getElem?_modify] at h
  obtain ⟨d, h1, rfl⟩ := Option.map_eq_some_iff.1 h
  refine ⟨d, h1, ?_⟩
  split
  · split <;> exact ⟨rfl, rfl, id⟩
  · exact ⟨rfl, rfl, id⟩

theorem retargets_mono (dup canon : Nat) (l : List (Nat × Nat)) : ∀ p : Prog,
    DeadMono p.insts (l.foldl (retarget dup canon) p).insts ∧
      (l.foldl (retarget dup canon) p).multi = p.multi := by
  induction l with
  | nil => intro p; exact ⟨.refl _, rfl⟩
  | cons x l ih =>
    intro p
    obtain ⟨a, b⟩ := retarget_mono dup canon p x
    obtain ⟨c, d⟩ := ih (retarget dup canon p x)
    exact ⟨a.trans c, d.trans b⟩

theorem DeadMono.multi_eq {l l' : List InstData} (h : DeadMono l l') {i : Nat} {d d' : InstData}
    (h1 : l[i]? = some d) (h2 : l'[i]? = some d') : d'.flags.multiJump = d.flags.multiJump := by
  obtain ⟨d1, g1, _, g3, _⟩ := h.dead i d' h2
  rw [h1] at g1; cases g1; exact g3

theorem DeadMono.any_multi {l l' : List InstData} (h : DeadMono l l') (i : Nat) :
    (l'[i]?).any (·.flags.multiJump) = (l[i]?).any (·.flags.multiJump) := by
  cases h1 : l[i]? with
  | none =>
    have : l'[i]? = none := by
      rw [List.getElem?_eq_none_iff] at h1 ⊢; rw [h.len]; exact h1
    rw [this]
  | some d =>
    have hl : i < l'.length := by rw [h.len]; exact (List.getElem?_eq_some_iff.1 h1).1
    rw [List.getElem?_eq_getElem hl, Option.any_some, Option.any_some,
      h.multi_eq h1 (List.getElem?_eq_getElem hl)]

/-- The intermediate program of a merge: the duplicate's instructions are dead. -/
def killed (s : DState) (canon dup : Nat × Nat) : Prog :=
  let p := { s.prog with insts := s.prog.insts.mapIdx fun i d =>
    if dup.1 ≤ i ∧ i < dup.2 then { d with flags := { d.flags with deadCode := true } } else d }
  if (p.insts[dup.1]?).any (fun d => d.isJumpdest && d.reachable) &&
      (p.insts[canon.1]?).any (·.isJumpdest) then
      p.modify canon.1 fun d => { d with reachable := true }
    else p

theorem killed_mono (s : DState) (canon dup : Nat × Nat) : DeadMono s.prog.insts (killed s canon dup).insts ∧
    (killed s canon dup).multi = s.prog.multi ∧
    ∀ (i : Nat) d, (killed s canon dup).insts[i]? = some d → dup.1 ≤ i → i < dup.2 → d.flags.deadCode = true := by
  have h1 : ∀ (i : Nat) d, (s.prog.insts.mapIdx fun i d =>
      if dup.1 ≤ i ∧ i < dup.2 then { d with flags := { d.flags with deadCode := true } } else d)[i]? = some d →
      (∃ d0, s.prog.insts[i]? = some d0 ∧ d.opcode = d0.opcode ∧ d.flags.multiJump = d0.flags.multiJump ∧
        (d0.flags.deadCode = true → d.flags.deadCode = true)) ∧
      (dup.1 ≤ i → i < dup.2 → d.flags.deadCode = true) := by
    intro i d h
    rw [List.getElem?_mapIdx] at h
    obtain ⟨d0, g, rfl⟩ := Option.map_eq_some_iff.1 h
    refine ⟨⟨d0, g, ?_⟩, fun a b => ?_⟩
    · split
      · exact ⟨rfl, rfl, fun _ => rfl⟩
      · exact ⟨rfl, rfl, id⟩
    · rw [if_pos ⟨a, b⟩]
  unfold killed
  dsimp only
  split
  · refine ⟨⟨by simp [Prog.modify], fun i d h => ?_⟩, rfl, fun i d h a b => ?_⟩
    · unfold Prog.modify at h
      dsimp only at h
      rw [List.getElem?_modify] at h
      obtain ⟨d0, g, rfl⟩ := Option.map_eq_some_iff.1 h
      have := (h1 i d0 g).1
      split <;> exact this
    · unfold Prog.modify at h
      dsimp only at h
      rw [List.getElem?_modify] at h
      obtain ⟨d0, g, rfl⟩ := Option.map_eq_some_iff.1 h
      have := (h1 i d0 g).2 a b
      split <;> exact this
  · exact ⟨⟨by simp, fun i d h => (h1 i d h).1⟩, rfl, fun i d h => (h1 i d h).2⟩

theorem merge_eq (s : DState) (preds : List (Nat × Nat)) (canon dup : Nat × Nat) :
    s.merge preds canon dup =
      (mergeTargets (killed s canon dup) (canon.2 - 1) (dup.2 - 1)).map fun p =>
        { s with
          prog := preds.foldl (retarget dup.1 canon.1) p
          redirects := s.redirects.insert dup.1 canon.1 } := rfl

/-- What a merge does to the recorded targets. -/
theorem merge_some {s : DState} {preds : List (Nat × Nat)} {canon dup : Nat × Nat}
    (hne : canon.2 - 1 ≠ dup.2 - 1)
    (hc : (s.prog.insts[dup.2 - 1]?).any (·.flags.multiJump) = true →
      (s.prog.multi.lookup (canon.2 - 1)).isSome = true) :
    ∃ s', s.merge preds canon dup = some s' ∧ DeadMono s.prog.insts s'.prog.insts ∧
      (∀ (i : Nat) d, s'.prog.insts[i]? = some d → dup.1 ≤ i → i < dup.2 → d.flags.deadCode = true) ∧
      (∀ i, i ≠ dup.2 - 1 → (s.prog.multi.lookup i).isSome = true → (s'.prog.multi.lookup i).isSome = true) := by
  obtain ⟨k1, k2, k3⟩ := killed_mono s canon dup
  have hmt : ∃ p, mergeTargets (killed s canon dup) (canon.2 - 1) (dup.2 - 1) = some p ∧
      p.insts = (killed s canon dup).insts ∧
      ∀ i, i ≠ dup.2 - 1 → (s.prog.multi.lookup i).isSome = true → (p.multi.lookup i).isSome = true := by
    unfold mergeTargets
    rw [k1.any_multi]
    by_cases hm : (s.prog.insts[dup.2 - 1]?).any (·.flags.multiJump) = true
    · rw [if_pos hm, k2]
      cases hl : s.prog.multi.lookup (dup.2 - 1) with
      | none => exact ⟨_, rfl, rfl, fun i _ h => by rw [k2]; exact h⟩
      | some ts =>
        obtain ⟨cs, hcs⟩ := Option.isSome_iff_exists.1 (hc hm)
        dsimp only
        rw [lookup_multiRemove, if_neg hne, hcs]
        refine ⟨_, rfl, rfl, fun i hi h => ?_⟩
        show (List.lookup i (multiInsert (multiRemove s.prog.multi (dup.2 - 1)) (canon.2 - 1) _)).isSome = true
        rw [lookup_multiInsert]
        by_cases hic : i = canon.2 - 1
        · rw [if_pos hic]; rfl
        · rw [if_neg hic, lookup_multiRemove, if_neg hi]; exact h
    · rw [if_neg hm]
      exact ⟨_, rfl, rfl, fun i _ h => by rw [k2]; exact h⟩
  obtain ⟨p, h1, h2, h3⟩ := hmt
  obtain ⟨r1, r2⟩ := retargets_mono dup.1 canon.1 preds p
  refine ⟨_, by rw [merge_eq, h1]; rfl, ?_, ?_, ?_⟩
  · exact k1.trans (h2 ▸ r1)
  · intro i d hd a b
    obtain ⟨d1, g1, _, _, g4⟩ := r1.dead i d hd
    rw [h2] at g1
    exact g4 (k3 i d1 g1 a b)
  · intro i hi h
    show (List.lookup i (preds.foldl (retarget dup.1 canon.1) p).multi).isSome = true
    rw [r2]; exact h3 i hi h

/-- Where a round is, after merging away the blocks `R`. -/
structure RoundInv (p0 : Prog) (R : List Nat) (p : Prog) : Prop where
  mono : DeadMono p0.insts p.insts
  dead : ∀ b ∈ R, ∀ x, p0.blocks[b]? = some x → ∀ (i : Nat) d, p.insts[i]? = some d → x.1 ≤ i → i < x.2 →
    d.flags.deadCode = true
  multi : ∀ (i : Nat) d, p0.insts[i]? = some d → d.flags.deadCode = false → d.flags.multiJump = true →
    (∀ b ∈ R, ∀ x, p0.blocks[b]? = some x → i ≠ x.2 - 1) → (p.multi.lookup i).isSome = true

theorem Prog.block_term_ne (p : Prog) {a b : Nat} {x y : Nat × Nat} (hx : p.blocks[a]? = some x)
    (hy : p.blocks[b]? = some y) (h : a ≠ b) : x.2 - 1 ≠ y.2 - 1 := by
  have h1 := (p.blocks_ok.range x (List.mem_of_getElem? hx)).2.1
  have h2 := (p.blocks_ok.range y (List.mem_of_getElem? hy)).2.1
  rcases Nat.lt_or_gt_of_ne h with h | h
  · have := p.blocks_lt hx hy h; omega
  · have := p.blocks_lt hy hx h; omega

/-- The last instruction of a block is flagged as a multi-jump. -/
def termMulti (p : Prog) (b : Nat) : Bool :=
  (p.blocks[b]?).any fun x => (p.insts[x.2 - 1]?).any (·.flags.multiJump)

theorem mergeAll_some {p0 : Prog} {succ : Nat × Nat → List Nat} {c : Nat} {canon : Nat × Nat}
    (hc : p0.blocks[c]? = some canon) (l : List Nat) : ∀ (s : DState) (R : List Nat),
    RoundInv p0 R s.prog → c ∉ R → c ∉ l → (∀ b ∈ l, b < p0.blocks.length) →
    (∀ b ∈ l, termMulti p0 b = termMulti p0 c) →
    ∃ s', DState.mergeAll p0.blocks succ canon l s = some s' ∧ RoundInv p0 (R ++ l) s'.prog := by
  induction l with
  | nil => intro s R h _ _ _ _; exact ⟨s, rfl, by rw [List.append_nil]; exact h⟩
  | cons b l ih =>
    intro s R h hcR hcl hb ht
    have hbl := hb b List.mem_cons_self
    have hdup := List.getElem?_eq_getElem hbl
    have hbc : c ≠ b := fun h => hcl (h ▸ List.mem_cons_self)
    have hterm := p0.block_term_ne hc hdup hbc
    obtain ⟨s', h1, h2, h3, h4⟩ := merge_some (s := s) (preds := predBlocks p0.blocks succ b) hterm
      (fun hm => by
        rw [h.mono.any_multi] at hm
        have htb := ht b List.mem_cons_self
        unfold termMulti at htb
        rw [hdup, hc, Option.any_some, Option.any_some, hm] at htb
        obtain ⟨d, hd1, hd2⟩ := p0.blocks_ok.last canon (List.mem_of_getElem? hc)
        rw [hd1, Option.any_some] at htb
        refine h.multi _ d hd1 hd2 htb.symm (fun r hr x hx => ?_)
        exact p0.block_term_ne hc hx (fun h => hcR (h ▸ hr)))
    obtain ⟨s'', g1, g2⟩ := ih s' (R ++ [b])
      ⟨h.mono.trans h2, fun r hr x hx i d hd a e => by
          rcases List.mem_append.1 hr with hr | hr
          · obtain ⟨d1, k1, _, _, k4⟩ := h2.dead i d hd
            exact k4 (h.dead r hr x hx i d1 k1 a e)
          · simp only [List.mem_singleton] at hr; subst hr
            rw [hdup] at hx; cases hx
            exact h3 i d hd a e,
        fun i d hd a e f => by
          refine h4 i (f b (by simp) _ hdup) (h.multi i d hd a e (fun r hr => f r (by simp [hr])))⟩
      (by simp only [List.mem_append, List.mem_singleton, not_or]; exact ⟨hcR, hbc⟩)
      (fun h => hcl (List.mem_cons_of_mem _ h)) (fun q hq => hb q (List.mem_cons_of_mem _ hq))
      (fun q hq => ht q (List.mem_cons_of_mem _ hq))
    refine ⟨s'', ?_, by simpa using g2⟩
    rw [DState.mergeAll, hdup]
    simp only [h1, Option.bind_some]
    exact g1

/-- The blocks a group merges away. -/
def groupDups (g : List Nat) : List Nat := g.tail

theorem mergeGroups_some {loc : AIState} {p0 : Prog} {succ : Nat × Nat → List Nat} (gs : List (List Nat)) :
    ∀ (s : DState) (R : List Nat), RoundInv p0 R s.prog →
    (∀ g ∈ gs, g.Pairwise (· < ·) ∧ (∀ b ∈ g, b < p0.blocks.length ∧ b ∉ R) ∧
      ∀ b ∈ g, ∀ b' ∈ g, termMulti p0 b = termMulti p0 b') →
    gs.Pairwise (fun g g' => ∀ b ∈ g, b ∉ g') →
    ∃ s', DState.mergeGroups loc p0.blocks succ gs s = some s' ∧
      RoundInv p0 (R ++ gs.flatMap groupDups) s'.prog := by
  induction gs with
  | nil => intro s R h _ _; exact ⟨s, rfl, by simpa using h⟩
  | cons g gs ih =>
    intro s R h hg hd
    rw [List.pairwise_cons] at hd
    have hone : ∃ s', s.mergeGroup loc p0.blocks succ g = some s' ∧ RoundInv p0 (R ++ groupDups g) s'.prog := by
      obtain ⟨a1, a2, a3⟩ := hg g List.mem_cons_self
      match g, a1, a2, a3 with
      | [], _, _, _ => exact ⟨s, rfl, by simpa [groupDups] using h⟩
      | [_], _, _, _ => exact ⟨s, rfl, by simpa [groupDups] using h⟩
      | c :: d :: rest, a1, a2, a3 =>
        have hcl := (a2 c List.mem_cons_self).1
        have hget := List.getElem?_eq_getElem hcl
        unfold DState.mergeGroup
        dsimp only
        rw [hget]
        exact mergeAll_some hget (d :: rest) _ R h (a2 c List.mem_cons_self).2
          (fun hm => by have := (List.pairwise_cons.1 a1).1 c hm; omega)
          (fun b hb => (a2 b (List.mem_cons_of_mem _ hb)).1)
          (fun b hb => a3 b (List.mem_cons_of_mem _ hb) c List.mem_cons_self)
    obtain ⟨s1, h1, h2⟩ := hone
    obtain ⟨s2, g1, g2⟩ := ih s1 (R ++ groupDups g) h2
      (fun g' hg' => by
        obtain ⟨a1, a2, a3⟩ := hg g' (List.mem_cons_of_mem _ hg')
        refine ⟨a1, fun b hb => ⟨(a2 b hb).1, fun hm => ?_⟩, a3⟩
        rcases List.mem_append.1 hm with hm | hm
        · exact (a2 b hb).2 hm
        · exact hd.1 g' hg' b (List.mem_of_mem_tail hm) hb) hd.2
    refine ⟨s2, ?_, by simpa [List.append_assoc] using g2⟩
    rw [DState.mergeGroups, h1, Option.bind_some]
    exact g1

theorem key_multi {s : DState} {bs : List (Nat × Nat)} {x : Nat × Nat} {k : DedupKey}
    (h : s.key bs x = some k) : (s.prog.insts[x.2 - 1]?).any (·.flags.multiJump) = k.isMulti := by
  unfold DState.key at h
  cases h1 : s.prog.insts[x.2 - 1]? with
  | none => rw [h1] at h; simp at h
  | some t =>
    cases h2 : s.prog.insts[x.1]? with
    | none => rw [h1, h2] at h; simp at h
    | some f =>
      rw [h1, h2] at h
      dsimp only at h
      repeat' split at h
      all_goals first | contradiction | (cases h; rfl)

/-- A round completes; it kills at least one live instruction if it reports a merge. -/
theorem once_some {loc : AIState} {s : DState} (hm : MultiLive s.prog) :
    ∃ s' n, s.once loc = some (s', n) ∧ MultiLive s'.prog ∧ DeadMono s.prog.insts s'.prog.insts ∧
      (0 < n → liveCount s'.prog.insts < liveCount s.prog.insts) := by
  have hg := groups_ok s s.prog.blocks
  have hd := groups_disjoint (s := s) (bs := s.prog.blocks)
  obtain ⟨s', h1, h2⟩ := mergeGroups_some (loc := loc) (p0 := s.prog) (succ := s.succs s.prog.blocks)
    ((s.groups s.prog.blocks).map (·.2)) s []
    ⟨.refl _, fun b hb => by simp at hb, fun i d a b c _ => hm i d a b c⟩
    (fun g hgm => by
      obtain ⟨g', hg', rfl⟩ := List.mem_map.1 hgm
      refine ⟨(hg.below g' hg').1, fun b hb => ⟨(hg.below g' hg').2 b hb, by simp⟩, fun b hb b' hb' => ?_⟩
      obtain ⟨x, x1, x2⟩ := hg.keys g' hg' b hb
      obtain ⟨y, y1, y2⟩ := hg.keys g' hg' b' hb'
      unfold termMulti
      rw [x1, y1, Option.any_some, Option.any_some, key_multi x2, key_multi y2])
    (List.pairwise_map.2 hd)
  rw [List.nil_append] at h2
  refine ⟨s', (((s.groups s.prog.blocks).map (·.2)).map (·.length - 1)).sum,
    by rw [DState.once, h1]; rfl, ?_, h2.mono, fun hn => ?_⟩
  · intro i d hdi hdead hmulti
    obtain ⟨d0, k1, _, k3, k4⟩ := h2.mono.dead i d hdi
    refine h2.multi i d0 k1 ?_ (k3 ▸ hmulti) (fun b hb x hx hix => ?_)
    · cases hq : d0.flags.deadCode with
      | false => rfl
      | true => rw [k4 hq] at hdead; simp at hdead
    · have hr := (s.prog.blocks_ok.range x (List.mem_of_getElem? hx)).2.1
      rw [h2.dead b hb x hx i d hdi (by omega) (by omega)] at hdead
      simp at hdead
  · have hex : ∃ g ∈ (s.groups s.prog.blocks).map (·.2), 0 < g.length - 1 := by
      refine Classical.byContradiction fun hno => ?_
      have : (((s.groups s.prog.blocks).map (·.2)).map (·.length - 1)).sum = 0 := by
        rw [List.sum_eq_zero_iff_forall_eq_nat]
        intro x hx
        obtain ⟨g, hg, rfl⟩ := List.mem_map.1 hx
        have : ¬ 0 < g.length - 1 := fun h => hno ⟨g, hg, h⟩
        show g.length - 1 = 0
        omega
      omega
    obtain ⟨g, hgm, hlen⟩ := hex
    have hmem := hgm
    obtain ⟨g', hg', rfl⟩ := List.mem_map.1 hgm
    have hb1 : g'.2.tail ≠ [] := by
      intro h
      have := congrArg List.length h
      rw [List.length_tail] at this
      simp at this; omega
    obtain ⟨b, hb⟩ := List.exists_mem_of_ne_nil _ hb1
    have hbl := (hg.below g' hg').2 b (List.mem_of_mem_tail hb)
    have hget := List.getElem?_eq_getElem hbl
    have hx := s.prog.blocks_ok.range _ (List.mem_of_getElem? hget)
    obtain ⟨d, q1, q2⟩ := s.prog.blocks_ok.first _ (List.mem_of_getElem? hget)
    have hl : (s.prog.blocks[b]).1 < s'.prog.insts.length := by
      rw [h2.mono.len]; omega
    refine h2.mono.liveCount.2 ⟨_, d, _, q1, q2, List.getElem?_eq_getElem hl, ?_⟩
    exact h2.dead b (List.mem_flatMap.2 ⟨g'.2, hmem, hb⟩) _ hget _ _ (List.getElem?_eq_getElem hl)
      (Nat.le_refl _) hx.2.1

theorem liveCount_le (l : List InstData) : liveCount l ≤ l.length := by
  unfold liveCount
  refine Nat.le_trans List.countP_le_length (by simp)

theorem MultiLive.mono {p p' : Prog} (h : MultiLive p) (hd : DeadMono p.insts p'.insts)
    (hm : p'.multi = p.multi) : MultiLive p' := by
  intro i d h1 h2 h3
  obtain ⟨d0, k1, _, k3, k4⟩ := hd.dead i d h1
  rw [hm]
  refine h i d0 k1 ?_ (k3 ▸ h3)
  cases hq : d0.flags.deadCode with
  | false => rfl
  | true => rw [k4 hq] at h2; simp at h2

theorem dedup_some {loc : AIState} (fuel : Nat) : ∀ (s : DState), Earlier s.redirects.get → MultiLive s.prog →
    liveCount s.prog.insts < fuel → ∃ s', DState.dedup loc fuel s = some s' := by
  induction fuel with
  | zero => intro s _ _ h; omega
  | succ n ih =>
    intro s he hm hl
    obtain ⟨s1, k, h1, h2, h3, h4⟩ := once_some (loc := loc) hm
    rw [DState.dedup, h1]
    cases k with
    | zero => exact ⟨s1, rfl⟩
    | succ k =>
      have hlt := h4 (by omega)
      have he1 := once_earlier h1 he
      obtain ⟨s2, g1, g2, g3, _⟩ := refresh_some he1
      dsimp only
      rw [g1, Option.bind_some]
      obtain ⟨m', c1, c2⟩ := compress_ok he1
      rw [refresh_compress g1] at c1
      cases c1
      have := g2.liveCount.1
      exact ih s2 c2.earlier (h2.mono g2 g3) (by omega)

end Verif
