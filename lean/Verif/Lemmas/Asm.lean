import Verif.Spec.Asm
/-!
# Lemmas: assembler
-/

namespace Verif.Asm
open Spec

theorem beBytes_length (n v : Nat) : (beBytes n v).length = n := by
  induction n with
  | zero => rfl
  | succ n ih => simp [beBytes, ih]

theorem foldl_beBytes (n v a : Nat) :
    (beBytes n v).foldl (fun acc b => acc * 256 + b.toNat) a = a * 256 ^ n + v % 256 ^ n := by
  induction n generalizing a with
  | zero => simp [beBytes, Nat.mod_one]
  | succ n ih =>
    rw [beBytes, List.foldl_cons, ih, UInt8.toNat_ofNat']
    have h1 : v % 256 ^ (n + 1) = 256 ^ n * (v / 256 ^ n % 256) + v % 256 ^ n := by
      rw [Nat.pow_succ, Nat.mod_mul, Nat.add_comm]
    rw [h1, show 256 ^ (n + 1) = 256 ^ n * 256 from Nat.pow_succ ..]
    change (a * 256 + v / 256 ^ n % 256) * 256 ^ n + v % 256 ^ n = _
    generalize 256 ^ n = p
    generalize v / p % 256 = q
    rw [Nat.add_mul, Nat.mul_comm q p, Nat.mul_assoc, Nat.mul_comm 256 p]
    omega

theorem beValue_beBytes (n v : Nat) (h : v < 256 ^ n) : beValue (beBytes n v) = v := by
  unfold beValue; rw [foldl_beBytes, Nat.mod_eq_of_lt h]; simp

theorem beBytes_pad (k n v : Nat) (h : v < 256 ^ k) :
    beBytes (k + n) v = List.replicate n 0 ++ beBytes k v := by
  induction n with
  | zero => simp
  | succ n ih =>
    rw [show k + (n + 1) = (k + n) + 1 by omega, beBytes, ih, List.replicate_succ, List.cons_append]
    have : v / 256 ^ (k + n) = 0 := by
      apply Nat.div_eq_of_lt
      exact Nat.lt_of_lt_of_le h (Nat.pow_le_pow_right (by omega) (by omega))
    rw [this]; rfl

/-- Trimming leaves the shortest big-endian string. -/
theorem trim_beBytes (n v : Nat) (h : v < 256 ^ n) :
    ∃ k, k ≤ n ∧ (beBytes n v).dropWhile (· == 0) = beBytes k v ∧ v < 256 ^ k ∧
      (k = 0 ∨ 256 ^ (k - 1) ≤ v) := by
  induction n with
  | zero => exact ⟨0, by omega, rfl, h, Or.inl rfl⟩
  | succ n ih =>
    by_cases h2 : v < 256 ^ n
    · obtain ⟨k, h3, h4, h5, h6⟩ := ih h2
      refine ⟨k, by omega, ?_, h5, h6⟩
      rw [beBytes, Nat.div_eq_of_lt h2, ← h4]; rfl
    · refine ⟨n + 1, by omega, ?_, h, Or.inr (by simpa using h2)⟩
      have hpos : 0 < 256 ^ n := Nat.pow_pos (by omega)
      have h3 : 0 < v / 256 ^ n := Nat.div_pos (by omega) hpos
      have h4 : v / 256 ^ n < 256 := by
        rw [Nat.div_lt_iff_lt_mul hpos, Nat.mul_comm, ← Nat.pow_succ]; exact h
      have h5 : ¬ (UInt8.ofNat (v / 256 ^ n) == 0) = true := by
        rw [beq_iff_eq]
        intro h
        have := congrArg UInt8.toNat h
        rw [UInt8.toNat_ofNat_of_lt' h4] at this
        simp at this; omega
      rw [beBytes, List.dropWhile_cons_of_neg (p := (· == 0)) h5]

theorem beTrimmed_spec (v : Word) :
    ∃ k, k ≤ 32 ∧ beTrimmed v = beBytes k v.toNat ∧ v.toNat < 256 ^ k ∧
      (k = 0 ∨ 256 ^ (k - 1) ≤ v.toNat) := by
  apply trim_beBytes
  have := v.isLt
  have h : (256 : Nat) ^ 32 = 2 ^ 256 := by decide
  omega

/-- The number of bytes is the least possible. -/
theorem width_unique {v k n : Nat} (h1 : v < 256 ^ n) (h2 : k = 0 ∨ 256 ^ (k - 1) ≤ v) : k ≤ n := by
  rcases h2 with h2 | h2
  · omega
  · have : 256 ^ (k - 1) < 256 ^ n := by omega
    have := (Nat.pow_lt_pow_iff_right (by omega : 1 < 256)).1 this
    omega

theorem encodeImm_some (v : Word) (n : Nat) :
    encodeImm v (some n) = if v.toNat < 256 ^ n then .ok (beBytes n v.toNat) else .error .immTooLarge := by
  obtain ⟨k, h1, h2, h3, h4⟩ := beTrimmed_spec v
  unfold encodeImm
  dsimp only
  rw [h2, beBytes_length]
  by_cases h : v.toNat < 256 ^ n
  · have hk := width_unique h h4
    rw [if_pos h]
    by_cases hlt : k < n
    · rw [if_pos hlt]
      have := beBytes_pad k (n - k) v.toNat h3
      rw [show k + (n - k) = n by omega] at this
      rw [this]
    · have : k = n := by omega
      subst this
      rw [if_neg hlt, if_pos rfl]
  · rw [if_neg h]
    have hk : n < k := by
      apply Decidable.by_contra
      intro hc
      exact h (Nat.lt_of_lt_of_le h3 (Nat.pow_le_pow_right (by omega) (by omega)))
    rw [if_neg (by omega), if_neg (by omega)]

theorem minPushWidth_le (v : Nat) : minPushWidth v ≤ 8 := by
  unfold minPushWidth
  dsimp only
  split <;> omega

theorem minPushWidth_low (v : Nat) (h : minPushWidth v ≠ 0) : 256 ^ (minPushWidth v - 1) ≤ v := by
  unfold minPushWidth at *
  dsimp only at *
  by_cases h0 : BitVec.ofNat 64 v = 0
  · rw [if_pos h0] at h; exact absurd rfl h
  · rw [if_neg h0] at h ⊢
    have h1 := BitVec.two_pow_sub_clz_le_toNat_of_ne_zero (x := BitVec.ofNat 64 v) (by omega) h0
    have h2 : (BitVec.ofNat 64 v).toNat ≤ v := by rw [BitVec.toNat_ofNat]; exact Nat.mod_le _ _
    have h3 := BitVec.clz_lt_iff_ne_zero (x := BitVec.ofNat 64 v)
    have h4 : (BitVec.ofNat 64 v).clz.toNat < 64 := by
      have := h3.2 h0
      rw [BitVec.lt_def] at this
      simpa using this
    refine Nat.le_trans ?_ (Nat.le_trans h1 h2)
    generalize (BitVec.ofNat 64 v).clz.toNat = c at *
    rw [show (256 : Nat) = 2 ^ 8 by decide, ← Nat.pow_mul]
    exact Nat.pow_le_pow_right (by omega) (by omega)

/-! ## The label table -/

/-- Where `name` is last defined. -/
def lastPos (name : String) : List (Item × Nat) → Nat → Option Nat
  | [], _ => none
  | (.label n, _) :: r, pc =>
    match lastPos name r pc with
    | some p => some p
    | none => if n = name then some pc else none
  | (.inst i, w) :: r, pc => lastPos name r (pc + itemSize (.inst i) w)

theorem labelPcs_lookup (name : String) (ws : List (Item × Nat)) (pc : Nat) (m : List (String × Nat)) :
    (labelPcs ws pc m).lookup name =
      match lastPos name ws pc with
      | some p => some p
      | none => m.lookup name := by
  induction ws generalizing pc m with
  | nil => rfl
  | cons x r ih =>
    obtain ⟨it, w⟩ := x
    cases it with
    | inst i => simp only [labelPcs, lastPos]; exact ih _ _
    | label n =>
      simp only [labelPcs, lastPos, ih]
      cases lastPos name r pc with
      | some p => rfl
      | none =>
        by_cases h : n = name
        · subst h; simp
        · have : (name == n) = false := by simpa using fun e => h e.symm
          simp [List.lookup, h, this]

/-- Sizes of the items before `j`. -/
def sizeUpTo (ws : List (Item × Nat)) (j : Nat) : Nat := ((ws.take j).map fun x => itemSize x.1 x.2).sum

theorem lastPos_none (name : String) (ws : List (Item × Nat)) (pc : Nat) :
    lastPos name ws pc = none ↔ ∀ x ∈ ws, x.1 ≠ .label name := by
  induction ws generalizing pc with
  | nil => simp [lastPos]
  | cons x r ih =>
    obtain ⟨it, w⟩ := x
    cases it with
    | inst i => simp [lastPos, ih]
    | label n =>
      simp only [lastPos, List.mem_cons, forall_eq_or_imp, ← ih pc]
      cases lastPos name r pc with
      | some p => simp
      | none => simp

theorem lastPos_some (name : String) (ws : List (Item × Nat)) (pc p : Nat)
    (h : lastPos name ws pc = some p) :
    ∃ j : Nat, (ws[j]?).map (·.1) = some (.label name) ∧
      (∀ k : Nat, j < k → (ws[k]?).map (·.1) ≠ some (.label name)) ∧ p = pc + sizeUpTo ws j := by
  induction ws generalizing pc with
  | nil => simp [lastPos] at h
  | cons x r ih =>
    obtain ⟨it, w⟩ := x
    have step : ∀ pc', pc' = pc + itemSize it w → lastPos name r pc' = some p → ∃ j : Nat,
        (((it, w) :: r)[j]?).map (·.1) = some (.label name) ∧
        (∀ k : Nat, j < k → (((it, w) :: r)[k]?).map (·.1) ≠ some (.label name)) ∧
        p = pc + sizeUpTo ((it, w) :: r) j := by
      intro pc' hpc hp
      obtain ⟨j, h1, h2, h3⟩ := ih pc' hp
      refine ⟨j + 1, h1, ?_, ?_⟩
      · intro k hk
        cases k with
        | zero => omega
        | succ k => exact h2 k (by omega)
      · rw [h3, hpc]
        simp [sizeUpTo]; omega
    cases it with
    | inst i => exact step _ rfl h
    | label n =>
      simp only [lastPos] at h
      cases hr : lastPos name r pc with
      | some q =>
        rw [hr] at h
        cases h
        exact step _ (by simp [itemSize]) hr
      | none =>
        rw [hr] at h
        dsimp only at h
        split at h
        · rename_i hn
          cases h
          subst hn
          refine ⟨0, rfl, ?_, by simp [sizeUpTo]⟩
          intro k hk hc
          cases k with
          | zero => omega
          | succ k =>
            have := (lastPos_none n r _).1 hr
            simp only [List.getElem?_cons_succ] at hc
            cases hk2 : r[k]? with
            | none => simp [hk2] at hc
            | some y =>
              rw [hk2] at hc
              exact this y (List.mem_of_getElem? hk2) (by simpa using hc)
        · cases h

/-! ## The layout loop -/

/-- Same items, widths not smaller. -/
inductive Grown : List (Item × Nat) → List (Item × Nat) → Prop
  | nil : Grown [] []
  | cons {it w w' r r'} : w ≤ w' → Grown r r' → Grown ((it, w) :: r) ((it, w') :: r')

theorem Grown.refl (ws : List (Item × Nat)) : Grown ws ws := by
  induction ws with
  | nil => exact .nil
  | cons x r ih => exact .cons (Nat.le_refl _) ih

theorem Grown.items {ws ws' : List (Item × Nat)} (h : Grown ws ws') :
    ws'.map (·.1) = ws.map (·.1) := by
  induction h with
  | nil => rfl
  | cons _ _ ih => simp [ih]

theorem itemSize_mono (it : Item) {w w' : Nat} (h : w ≤ w') : itemSize it w ≤ itemSize it w' := by
  cases it with
  | label n => simp [itemSize]
  | inst i =>
    simp only [itemSize]
    cases i.kind with
    | none => simp
    | fixed n => simp
    | auto =>
      cases i.imm with
      | none => simp
      | some m => cases m <;> simp [h]

theorem lastPos_mono (name : String) {ws ws' : List (Item × Nat)} (h : Grown ws ws') (pc pc' : Nat)
    (hpc : pc ≤ pc') {p : Nat} (hp : lastPos name ws pc = some p) :
    ∃ p', lastPos name ws' pc' = some p' ∧ p ≤ p' := by
  induction h generalizing pc pc' with
  | nil => simp [lastPos] at hp
  | @cons it w w' r r' hw hg ih =>
    cases it with
    | inst i =>
      simp only [lastPos] at hp ⊢
      exact ih _ _ (Nat.add_le_add hpc (itemSize_mono _ hw)) hp
    | label n =>
      simp only [lastPos] at hp ⊢
      cases hr : lastPos name r pc with
      | some q =>
        rw [hr] at hp
        cases hp
        obtain ⟨p', h1, h2⟩ := ih pc pc' hpc hr
        exact ⟨p', by rw [h1], h2⟩
      | none =>
        rw [hr] at hp
        dsimp only at hp
        split at hp
        · rename_i hn
          cases hp
          have hnone : lastPos name r' pc' = none := by
            rw [lastPos_none] at hr ⊢
            intro y hy hc
            have h1 : y.1 ∈ r'.map (·.1) := List.mem_map_of_mem hy
            rw [hg.items] at h1
            obtain ⟨z, hz, hz2⟩ := List.mem_map.1 h1
            exact hr z hz (hz2.trans hc)
          rw [hnone]
          exact ⟨pc', by rw [if_pos hn], hpc⟩
        · cases hp

/-- What one width update does. -/
theorem growWidths_ok (m : List (String × Nat)) (ws ws' : List (Item × Nat)) (c : Bool)
    (h : growWidths m ws = .ok (ws', c)) :
    Grown ws ws' ∧ (c = false → ws' = ws) ∧
    (c = true → (ws.map (·.2)).sum < (ws'.map (·.2)).sum) ∧
    (∀ x ∈ ws', ∀ name, autoName x.1 = some name → ∃ pc, m.lookup name = some pc ∧
      (minPushWidth pc ≤ x.2) ∧
      ((x ∈ ws) ∨ x.2 = minPushWidth pc)) ∧
    (∀ x ∈ ws', autoName x.1 = none → x ∈ ws) := by
  induction ws generalizing ws' c with
  | nil =>
    simp only [growWidths] at h
    cases h
    refine ⟨.nil, fun _ => rfl, fun h => (by cases h), by simp, by simp⟩
  | cons x r ih =>
    obtain ⟨it, w⟩ := x
    cases ha : autoName it with
    | none =>
      have hstep : growWidths m ((it, w) :: r) =
          match growWidths m r with
          | .error e => .error e
          | .ok (r', c) => .ok ((it, w) :: r', c) := by
        rw [growWidths, ha]; rfl
      rw [hstep] at h
      cases hr : growWidths m r with
      | error e => rw [hr] at h; cases h
      | ok p =>
        obtain ⟨r', c'⟩ := p
        rw [hr] at h
        cases h
        obtain ⟨h1, h2, h3, h4, h5⟩ := ih r' c hr
        refine ⟨.cons (Nat.le_refl _) h1, fun hc => by rw [h2 hc], fun hc => ?_, ?_, ?_⟩
        · have := h3 hc
          simp only [List.map_cons, List.sum_cons]; omega
        · intro x hx name hn
          rcases List.mem_cons.1 hx with hx | hx
          · subst hx; rw [ha] at hn; cases hn
          · obtain ⟨pc, a, b, d⟩ := h4 x hx name hn
            exact ⟨pc, a, b, d.imp (fun h => List.mem_cons_of_mem _ h) id⟩
        · intro x hx hn
          rcases List.mem_cons.1 hx with hx | hx
          · subst hx; exact List.mem_cons_self
          · exact List.mem_cons_of_mem _ (h5 x hx hn)
    | some name =>
      have hstep : growWidths m ((it, w) :: r) =
          match m.lookup name with
          | none => .error .undefinedLabel
          | some pc =>
            match growWidths m r with
            | .error e => .error e
            | .ok (r', c) =>
              if minPushWidth pc > w then .ok ((it, minPushWidth pc) :: r', true)
              else .ok ((it, w) :: r', c) := by
        rw [growWidths, ha]
        rfl
      rw [hstep] at h
      cases hm : m.lookup name with
      | none => rw [hm] at h; cases h
      | some pc =>
        rw [hm] at h
        dsimp only at h
        cases hr : growWidths m r with
        | error e => rw [hr] at h; cases h
        | ok p =>
          obtain ⟨r', c'⟩ := p
          rw [hr] at h
          dsimp only at h
          obtain ⟨h1, h2, h3, h4, h5⟩ := ih r' c' hr
          have tail4 : ∀ x ∈ r', ∀ name, autoName x.1 = some name → ∃ pc, m.lookup name = some pc ∧
              (minPushWidth pc ≤ x.2) ∧ ((x ∈ (it, w) :: r) ∨ x.2 = minPushWidth pc) := by
            intro x hx name hn
            obtain ⟨pc, a, b, d⟩ := h4 x hx name hn
            exact ⟨pc, a, b, d.imp (fun h => List.mem_cons_of_mem _ h) id⟩
          have hsum : (r.map (·.2)).sum ≤ (r'.map (·.2)).sum := by
            cases hc : c' with
            | false => rw [h2 hc]; exact Nat.le_refl _
            | true => exact Nat.le_of_lt (h3 hc)
          by_cases hgt : minPushWidth pc > w
          · rw [if_pos hgt] at h
            cases h
            refine ⟨.cons (by omega) h1, fun hc => (nomatch hc), fun _ => ?_, ?_, ?_⟩
            · simp only [List.map_cons, List.sum_cons]; omega
            · intro x hx nm hn
              rcases List.mem_cons.1 hx with hx | hx
              · subst hx
                rw [ha] at hn
                cases hn
                exact ⟨pc, hm, Nat.le_refl _, Or.inr rfl⟩
              · exact tail4 x hx nm hn
            · intro x hx hn
              rcases List.mem_cons.1 hx with hx | hx
              · subst hx; rw [ha] at hn; cases hn
              · exact List.mem_cons_of_mem _ (h5 x hx hn)
          · rw [if_neg hgt] at h
            cases h
            refine ⟨.cons (Nat.le_refl _) h1, fun hc => by rw [h2 hc], fun hc => ?_, ?_, ?_⟩
            · have := h3 hc
              simp only [List.map_cons, List.sum_cons]; omega
            · intro x hx nm hn
              rcases List.mem_cons.1 hx with hx | hx
              · subst hx
                rw [ha] at hn
                cases hn
                exact ⟨pc, hm, by omega, Or.inl List.mem_cons_self⟩
              · exact tail4 x hx nm hn
            · intro x hx hn
              rcases List.mem_cons.1 hx with hx | hx
              · subst hx; exact List.mem_cons_self
              · exact List.mem_cons_of_mem _ (h5 x hx hn)

/-- Widths are at most 8 and not larger than the current label value needs. -/
def WInv (ws : List (Item × Nat)) : Prop :=
  ∀ x ∈ ws, (x.2 ≤ 8) ∧ ∀ name, autoName x.1 = some name →
    x.2 = 0 ∨ ∃ p, lastPos name ws 0 = some p ∧ 256 ^ (x.2 - 1) ≤ p

theorem lookup_lastPos (ws : List (Item × Nat)) (name : String) :
    (labelPcs ws 0 []).lookup name = lastPos name ws 0 := by
  rw [labelPcs_lookup]; cases lastPos name ws 0 <;> rfl

theorem WInv.grow {ws ws' : List (Item × Nat)} {c : Bool} (hi : WInv ws)
    (h : growWidths (labelPcs ws 0 []) ws = .ok (ws', c)) : WInv ws' := by
  obtain ⟨h1, _, _, h4, h5⟩ := growWidths_ok _ _ _ _ h
  intro x hx
  cases ha : autoName x.1 with
  | none => exact ⟨(hi x (h5 x hx ha)).1, fun name hn => by cases hn⟩
  | some name =>
    obtain ⟨pc, a, b, d⟩ := h4 x hx name ha
    rw [lookup_lastPos] at a
    obtain ⟨p', hp', hle⟩ := lastPos_mono name h1 0 0 (Nat.le_refl _) a
    refine ⟨?_, ?_⟩
    · rcases d with d | d
      · exact (hi x d).1
      · rw [d]; exact minPushWidth_le pc
    · intro nm hnm
      cases hnm
      rcases d with d | d
      · rcases (hi x d).2 name ha with e | ⟨p, e1, e2⟩
        · exact Or.inl e
        · rw [e1] at a; cases a
          exact Or.inr ⟨p', hp', by omega⟩
      · by_cases h0 : x.2 = 0
        · exact Or.inl h0
        · refine Or.inr ⟨p', hp', ?_⟩
          have := minPushWidth_low pc (by omega)
          rw [d]; omega

theorem layoutLoop_ok (fuel : Nat) (ws ws' : List (Item × Nat)) (m : List (String × Nat)) (hi : WInv ws)
    (h : layoutLoop fuel ws = .ok (ws', m)) :
    ws'.map (·.1) = ws.map (·.1) ∧ WInv ws' ∧ m = labelPcs ws' 0 [] ∧
    growWidths m ws' = .ok (ws', false) := by
  induction fuel generalizing ws with
  | zero => simp [layoutLoop] at h
  | succ fuel ih =>
    simp only [layoutLoop] at h
    cases hg : growWidths (labelPcs ws 0 []) ws with
    | error e => rw [hg] at h; cases h
    | ok p =>
      obtain ⟨w2, c⟩ := p
      rw [hg] at h
      dsimp only at h
      cases hc : c with
      | false =>
        rw [hc] at h
        simp only [Bool.false_eq_true, if_false] at h
        cases h
        refine ⟨rfl, hi, rfl, ?_⟩
        rw [hg, hc, (growWidths_ok _ _ _ _ hg).2.1 hc]
      | true =>
        rw [hc] at h
        simp only [if_true] at h
        obtain ⟨a, b, d⟩ := ih w2 (hi.grow hg) h
        exact ⟨a.trans (growWidths_ok _ _ _ _ hg).1.items, b, d⟩

theorem sum_le (ws : List (Item × Nat)) (h : ∀ x ∈ ws, x.2 ≤ 8) :
    (ws.map (·.2)).sum ≤ 8 * ws.length := by
  induction ws with
  | nil => simp
  | cons x r ih =>
    have := h x List.mem_cons_self
    have := ih fun y hy => h y (List.mem_cons_of_mem _ hy)
    simp only [List.map_cons, List.sum_cons, List.length_cons]; omega

theorem Grown.length {ws ws' : List (Item × Nat)} (h : Grown ws ws') : ws'.length = ws.length := by
  have := congrArg List.length h.items
  simpa using this

theorem layoutLoop_fuel (fuel : Nat) (ws : List (Item × Nat)) (hi : WInv ws)
    (hf : 8 * ws.length < fuel + (ws.map (·.2)).sum) : layoutLoop fuel ws ≠ .error .fuel := by
  induction fuel generalizing ws with
  | zero =>
    have := sum_le ws fun x hx => (hi x hx).1
    omega
  | succ fuel ih =>
    simp only [layoutLoop]
    cases hg : growWidths (labelPcs ws 0 []) ws with
    | error e =>
      dsimp only
      intro h
      cases h
      -- growWidths only fails on undefined labels
      have : ∀ (m : List (String × Nat)) (l : List (Item × Nat)), growWidths m l ≠ .error .fuel := by
        intro m l
        fun_induction growWidths m l <;> simp_all
      exact this _ _ hg
    | ok p =>
      obtain ⟨w2, c⟩ := p
      dsimp only
      obtain ⟨h1, h2, h3, h4⟩ := growWidths_ok _ _ _ _ hg
      cases hc : c with
      | false => simp
      | true =>
        simp only [if_true]
        refine ih w2 (hi.grow hg) ?_
        have := h3 hc
        rw [h1.length]; omega

theorem WInv.init (items : List Item) : WInv (items.map fun it => (it, 0)) := by
  intro x hx
  obtain ⟨it, _, rfl⟩ := List.mem_map.1 hx
  exact ⟨by simp, fun _ _ => Or.inl rfl⟩

/-! ## Emission -/

theorem emitAll_ok {α : Type} (f : α → Except Err (List UInt8)) (l : List α) (code : List UInt8)
    (h : emitAll f l = .ok code) :
    ∃ chunks : List (List UInt8), chunks.length = l.length ∧ code = chunks.flatten ∧
      ∀ (i : Nat) (a : α) (c : List UInt8), l[i]? = some a → chunks[i]? = some c → f a = .ok c := by
  induction l generalizing code with
  | nil =>
    simp only [emitAll] at h
    cases h
    exact ⟨[], rfl, rfl, by simp⟩
  | cons a r ih =>
    simp only [emitAll] at h
    cases hf : f a with
    | error e => rw [hf] at h; cases h
    | ok c =>
      rw [hf] at h
      dsimp only at h
      cases hr : emitAll f r with
      | error e => rw [hr] at h; cases h
      | ok code' =>
        rw [hr] at h
        cases h
        obtain ⟨chunks, h1, h2, h3⟩ := ih code' hr
        refine ⟨c :: chunks, by simp [h1], by simp [h2], ?_⟩
        intro i b d hb hd
        cases i with
        | zero => cases hb; cases hd; exact hf
        | succ i => exact h3 i b d hb hd

theorem ofNat_add_push0 (w : Nat) : op.PUSH0 + UInt8.ofNat w = UInt8.ofNat (0x5f + w) := by
  rw [UInt8.ofNat_add]; rfl

/-- Bytes of one emitted item, given the value of its immediate. -/
theorem emitItem_ok {m : List (String × Nat)} {i : Inst} {w : Nat} {c : List UInt8}
    (h : emitItem m (.inst i, w) = .ok c) :
    match i.kind with
    | .none => c = [i.opcode]
    | .fixed size => ∃ v, resolveImm m i.imm = .ok v ∧ v.toNat < 256 ^ size ∧
        c = i.opcode :: beBytes size v.toNat
    | .auto => ∃ v width, resolveImm m i.imm = .ok v ∧ (width = 0 ∨ v.toNat < 256 ^ width) ∧
        c = UInt8.ofNat (0x5f + width) :: beBytes width v.toNat ∧
        width = pushWidth i.imm w v := by
  simp only [emitItem] at h
  cases hk : i.kind with
  | none => rw [hk] at h; cases h; rfl
  | fixed size =>
    rw [hk] at h
    dsimp only at h ⊢
    cases hr : resolveImm m i.imm with
    | error e => rw [hr] at h; cases h
    | ok v =>
      rw [hr] at h
      dsimp only at h
      rw [encodeImm_some] at h
      by_cases hv : v.toNat < 256 ^ size
      · rw [if_pos hv] at h; cases h; exact ⟨v, rfl, hv, rfl⟩
      · rw [if_neg hv] at h; cases h
  | auto =>
    rw [hk] at h
    dsimp only at h ⊢
    cases hr : resolveImm m i.imm with
    | error e => rw [hr] at h; cases h
    | ok v =>
      rw [hr] at h
      dsimp only at h
      refine ⟨v, pushWidth i.imm w v, rfl, ?_⟩
      generalize pushWidth i.imm w v = width at *
      by_cases h0 : width > 0
      · rw [if_pos h0] at h
        rw [encodeImm_some] at h
        by_cases hv : v.toNat < 256 ^ width
        · rw [if_pos hv] at h
          cases h
          exact ⟨Or.inr hv, by rw [ofNat_add_push0], rfl⟩
        · rw [if_neg hv] at h; cases h
      · rw [if_neg h0] at h
        cases h
        have : width = 0 := by omega
        subst this
        exact ⟨Or.inl rfl, by rw [ofNat_add_push0]; rfl, rfl⟩

theorem emitItem_length {m : List (String × Nat)} {x : Item × Nat} {c : List UInt8}
    (h : emitItem m x = .ok c) : c.length = itemSize x.1 x.2 := by
  obtain ⟨it, w⟩ := x
  cases it with
  | label n => simp only [emitItem] at h; cases h; rfl
  | inst i =>
    have h' := emitItem_ok h
    simp only [itemSize]
    cases hk : i.kind with
    | none => rw [hk] at h'; simp only at h'; rw [h']; rfl
    | fixed n =>
      rw [hk] at h'
      obtain ⟨v, _, _, rfl⟩ := h'
      simp [beBytes_length]; omega
    | auto =>
      rw [hk] at h'
      obtain ⟨v, width, h1, _, rfl, h3⟩ := h'
      simp only [List.length_cons, beBytes_length, h3, pushWidth]
      cases hi : i.imm with
      | none => rw [hi] at h1; cases h1
      | some im =>
        cases im with
        | label nm => simp only; omega
        | number n =>
          rw [hi] at h1
          simp only [resolveImm] at h1
          cases h1
          simp only; omega

theorem sizes_eq {m : List (String × Nat)} {ws : List (Item × Nat)} {chunks : List (List UInt8)}
    (hl : chunks.length = ws.length)
    (hc : ∀ (i : Nat) (a : Item × Nat) (c : List UInt8), ws[i]? = some a → chunks[i]? = some c →
      emitItem m a = .ok c) (j : Nat) : sizeUpTo ws j = offset chunks j := by
  have h : (ws.map fun x => itemSize x.1 x.2) = chunks.map List.length := by
    apply List.ext_getElem
    · simp [hl]
    · intro i h1 h2
      simp only [List.length_map] at h1 h2
      simp only [List.getElem_map]
      exact (emitItem_length (hc i _ _ (List.getElem?_eq_getElem h1)
        (List.getElem?_eq_getElem h2))).symm
  unfold sizeUpTo offset
  rw [List.length_flatten, List.map_take, List.map_take, h]

theorem offset_le (chunks : List (List UInt8)) (j : Nat) : offset chunks j ≤ chunks.flatten.length := by
  unfold offset
  conv => rhs; rw [← List.take_append_drop j chunks, List.flatten_append, List.length_append]
  omega

theorem minPushWidth_zero {v : Nat} (h : minPushWidth v = 0) (hv : v < 2 ^ 64) : v = 0 := by
  apply Decidable.by_contra
  intro h0
  have hne : BitVec.ofNat 64 v ≠ 0 := by
    intro e
    have := congrArg BitVec.toNat e
    rw [BitVec.toNat_ofNat, Nat.mod_eq_of_lt hv] at this
    exact h0 this
  unfold minPushWidth at h
  dsimp only at h
  rw [if_neg hne] at h
  have h4 : (BitVec.ofNat 64 v).clz.toNat < 64 := by
    have := BitVec.clz_lt_iff_ne_zero.2 hne
    rw [BitVec.lt_def] at this
    simpa using this
  omega


theorem emitAll_ne_fuel {α : Type} (f : α → Except Err (List UInt8)) (hf : ∀ a, f a ≠ .error .fuel)
    (l : List α) : emitAll f l ≠ .error .fuel := by
  induction l with
  | nil => simp [emitAll]
  | cons a r ih =>
    simp only [emitAll]
    cases h : f a with
    | error e =>
      have := hf a
      rw [h] at this
      simpa using this
    | ok c =>
      dsimp only
      cases h2 : emitAll f r with
      | error e => rw [h2] at ih; simpa using ih
      | ok c2 => simp

end Verif.Asm
