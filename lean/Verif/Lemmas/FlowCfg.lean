import Verif.Model.Flow
/-!
# The basic blocks
-/

namespace Verif

/-- Instruction `i` exists and is not dead. -/
def LiveAt (insts : List InstData) (i : Nat) : Prop := ∃ d, insts[i]? = some d ∧ d.flags.deadCode = false

/-- What the block-building loop guarantees about the blocks it emits from position `i` on. -/
structure BlocksFrom (lead : Nat → Bool) (insts : List InstData) (lo i : Nat) (r : List (Nat × Nat)) : Prop where
  range : ∀ b ∈ r, lo ≤ b.1 ∧ b.1 < b.2 ∧ b.2 ≤ insts.length
  first : ∀ b ∈ r, LiveAt insts b.1
  last : ∀ b ∈ r, LiveAt insts (b.2 - 1)
  sorted : r.Pairwise fun a b => a.2 ≤ b.1
  cover : ∀ j, i ≤ j → LiveAt insts j → ∃ b ∈ r, b.1 ≤ j ∧ j < b.2
  inside : ∀ b ∈ r, ∀ j, b.1 < j → j < b.2 → lead j = false

/-- The open block while scanning position `i`. -/
structure OpenAt (lead : Nat → Bool) (insts : List InstData) (s e i : Nat) (pend : Bool) : Prop where
  lt : s < e
  le : e ≤ i
  first : LiveAt insts s
  last : LiveAt insts (e - 1)
  inside : ∀ j, s < j → j < e → lead j = false
  pend : ∀ j, e ≤ j → j < i → lead j = true → pend = true

theorem buildLoop_cons (lead : Nat → Bool) (d : InstData) (ds : List InstData) (i : Nat) (cur : Option Nat)
    (e : Nat) (pending : Bool) : buildLoop lead (d :: ds) i cur e pending =
      if d.flags.deadCode then buildLoop lead ds (i + 1) cur e (pending || lead i)
      else if lead i || pending || cur.isNone then
        match cur with
        | some s => (s, e) :: buildLoop lead ds (i + 1) (some i) (i + 1) false
        | none => buildLoop lead ds (i + 1) (some i) (i + 1) false
      else buildLoop lead ds (i + 1) cur (i + 1) false := by
  cases cur <;> simp [buildLoop]

theorem buildLoop_ok (lead : Nat → Bool) (insts : List InstData) (ds : List InstData) :
    ∀ (i : Nat) (cur : Option Nat) (e : Nat) (pend : Bool), ds = insts.drop i → i ≤ insts.length →
      (∀ s, cur = some s → OpenAt lead insts s e i pend) →
      BlocksFrom lead insts (cur.getD i) i (buildLoop lead ds i cur e pend) ∧
        ∀ s, cur = some s → ∃ e', (s, e') ∈ buildLoop lead ds i cur e pend ∧ e ≤ e' ∧
          ∀ b ∈ buildLoop lead ds i cur e pend, b = (s, e') ∨ e' ≤ b.1 := by
  induction ds with
  | nil =>
    intro i cur e pend hds hi hopen
    have hlen : insts.length ≤ i := by
      have := congrArg List.length hds
      rw [List.length_nil, List.length_drop] at this; omega
    have hno : ∀ j, i ≤ j → ¬ LiveAt insts j := by
      rintro j hj ⟨d, hd, _⟩
      rw [List.getElem?_eq_none (by omega)] at hd; simp at hd
    cases cur with
    | none =>
      refine ⟨⟨?_, ?_, ?_, ?_, fun j hj h => absurd h (hno j hj), ?_⟩, fun s h => by simp at h⟩ <;>
        simp [buildLoop]
    | some s =>
      have h := hopen s rfl
      have hle := h.le; have hlt := h.lt
      refine ⟨⟨?_, ?_, ?_, ?_, fun j hj h => absurd h (hno j hj), ?_⟩, fun s' hs => ?_⟩
      · intro b hb
        simp only [buildLoop, List.mem_singleton] at hb; subst hb
        exact ⟨Nat.le_refl _, h.lt, by show e ≤ _; omega⟩
      · intro b hb
        simp only [buildLoop, List.mem_singleton] at hb; subst hb
        exact h.first
      · intro b hb
        simp only [buildLoop, List.mem_singleton] at hb; subst hb
        exact h.last
      · simp [buildLoop]
      · intro b hb
        simp only [buildLoop, List.mem_singleton] at hb; subst hb
        exact h.inside
      · cases hs
        exact ⟨e, by simp [buildLoop], Nat.le_refl _, fun b hb => by
          simp only [buildLoop, List.mem_singleton] at hb; exact .inl hb⟩
  | cons d ds ih =>
    intro i cur e pend hds hi hopen
    have hil : i < insts.length := by
      have := congrArg List.length hds
      rw [List.length_cons, List.length_drop] at this; omega
    have hget : insts[i]? = some d := by
      have := congrArg (fun l => l[0]?) hds
      simp only [List.getElem?_cons_zero, List.getElem?_drop, Nat.add_zero] at this
      exact this.symm
    have hds' : ds = insts.drop (i + 1) := by
      have := congrArg List.tail hds
      rw [List.tail_cons, List.tail_drop] at this
      exact this
    rw [buildLoop_cons]
    by_cases hdead : d.flags.deadCode = true
    · rw [if_pos hdead]
      have hnl : ¬ LiveAt insts i := by
        rintro ⟨d', h1, h2⟩
        rw [hget] at h1; cases h1; rw [hdead] at h2; simp at h2
      obtain ⟨b1, b2⟩ := ih (i + 1) cur e (pend || lead i) hds' (by omega) (fun s hs => by
        have h := hopen s hs
        refine ⟨h.lt, Nat.le_trans h.le (by omega), h.first, h.last, h.inside, fun j h1 h2 h3 => ?_⟩
        rcases Nat.lt_or_ge j i with hj | hj
        · rw [h.pend j h1 hj h3]; rfl
        · have : j = i := by omega
          subst this; rw [h3]; simp)
      refine ⟨⟨fun b hb => ?_, b1.first, b1.last, b1.sorted, fun j hj hl => ?_, b1.inside⟩, b2⟩
      · have := b1.range b hb
        cases cur with
        | none => exact ⟨by simp only [Option.getD_none] at this ⊢; omega, this.2⟩
        | some s => exact this
      · rcases Nat.lt_or_ge i j with h | h
        · exact b1.cover j h hl
        · have : j = i := by omega
          subst this; exact absurd hl hnl
    · rw [if_neg hdead]
      have hlive : LiveAt insts i := ⟨d, hget, by simpa using hdead⟩
      by_cases hnew : (lead i || pend || cur.isNone) = true
      · rw [if_pos hnew]
        have hopen' : ∀ s, (some i) = some s → OpenAt lead insts s (i + 1) (i + 1) false := by
          intro s hs; cases hs
          exact ⟨by omega, Nat.le_refl _, hlive, by simpa using hlive, fun j _ _ => by omega,
            fun j _ _ => by omega⟩
        obtain ⟨b1, b2⟩ := ih (i + 1) (some i) (i + 1) false hds' (by omega) hopen'
        obtain ⟨e', c1, c2, c3⟩ := b2 i rfl
        have hcov : ∀ j, i ≤ j → LiveAt insts j →
            ∃ b ∈ buildLoop lead ds (i + 1) (some i) (i + 1) false, b.1 ≤ j ∧ j < b.2 := by
          intro j hj hl
          rcases Nat.lt_or_ge i j with h | h
          · exact b1.cover j h hl
          · have : j = i := by omega
            subst this
            exact ⟨_, c1, Nat.le_refl _, by show j < e'; omega⟩
        cases cur with
        | none =>
          exact ⟨⟨b1.range, b1.first, b1.last, b1.sorted, hcov, b1.inside⟩, fun s h => by simp at h⟩
        | some s =>
          have h := hopen s rfl
          have hle := h.le; have hlt := h.lt
          refine ⟨⟨?_, ?_, ?_, ?_, ?_, ?_⟩, fun s' hs => ?_⟩
          · intro b hb
            rcases List.mem_cons.1 hb with rfl | hb
            · exact ⟨Nat.le_refl _, h.lt, by show e ≤ _; omega⟩
            · obtain ⟨q1, q2, q3⟩ := b1.range b hb
              simp only [Option.getD_some] at q1 ⊢
              exact ⟨by omega, q2, q3⟩
          · intro b hb
            rcases List.mem_cons.1 hb with rfl | hb
            · exact h.first
            · exact b1.first b hb
          · intro b hb
            rcases List.mem_cons.1 hb with rfl | hb
            · exact h.last
            · exact b1.last b hb
          · refine List.pairwise_cons.2 ⟨fun b hb => ?_, b1.sorted⟩
            have q := (b1.range b hb).1
            simp only [Option.getD_some] at q
            show e ≤ b.1
            omega
          · intro j hj hl
            obtain ⟨b, hb, hx⟩ := hcov j hj hl
            exact ⟨b, List.mem_cons_of_mem _ hb, hx⟩
          · intro b hb
            rcases List.mem_cons.1 hb with rfl | hb
            · exact h.inside
            · exact b1.inside b hb
          · cases hs
            refine ⟨e, List.mem_cons_self, Nat.le_refl _, fun b hb => ?_⟩
            rcases List.mem_cons.1 hb with rfl | hb
            · exact .inl rfl
            · have q := (b1.range b hb).1
              simp only [Option.getD_some] at q
              exact .inr (by omega)
      · rw [if_neg hnew]
        simp only [Bool.or_eq_true, not_or, Bool.not_eq_true] at hnew
        obtain ⟨⟨hl0, hp0⟩, hn0⟩ := hnew
        cases cur with
        | none => simp at hn0
        | some s =>
          have h := hopen s rfl
          have hle := h.le; have hlt := h.lt
          obtain ⟨b1, b2⟩ := ih (i + 1) (some s) (i + 1) false hds' (by omega) (fun s' hs => by
            cases hs
            refine ⟨by omega, Nat.le_refl _, h.first, by simpa using hlive, fun j h1 h2 => ?_,
              fun j _ _ => by omega⟩
            rcases Nat.lt_or_ge j e with hj | hj
            · exact h.inside j h1 hj
            · rcases Nat.lt_or_ge j i with hji | hji
              · cases hlj : lead j with
                | false => rfl
                | true => rw [h.pend j hj hji hlj] at hp0; simp at hp0
              · have : j = i := by omega
                subst this; exact hl0)
          obtain ⟨e', c1, c2, c3⟩ := b2 s rfl
          refine ⟨⟨b1.range, b1.first, b1.last, b1.sorted, fun j hj hl => ?_, b1.inside⟩, fun s' hs => ?_⟩
          · rcases Nat.lt_or_ge i j with hij | hij
            · exact b1.cover j hij hl
            · have : j = i := by omega
              subst this
              exact ⟨_, c1, by show s ≤ j; omega, by show j < e'; omega⟩
          · cases hs
            exact ⟨e', c1, by omega, c3⟩

theorem Prog.blocks_ok (p : Prog) : BlocksFrom p.isLeader p.insts 0 0 p.blocks :=
  (buildLoop_ok p.isLeader p.insts p.insts 0 none 0 false (by simp) (by omega) (fun s h => by simp at h)).1

/-- Blocks with smaller numbers come first. -/
theorem Prog.blocks_lt (p : Prog) {a b : Nat} {x y : Nat × Nat} (hx : p.blocks[a]? = some x)
    (hy : p.blocks[b]? = some y) (h : a < b) : x.2 ≤ y.1 := by
  have hs := p.blocks_ok.sorted
  rw [List.pairwise_iff_getElem] at hs
  obtain ⟨h1, rfl⟩ := List.getElem?_eq_some_iff.1 hx
  obtain ⟨h2, rfl⟩ := List.getElem?_eq_some_iff.1 hy
  exact hs a b h1 h2 h

/-- `inst_to_block` finds the block an instruction is in. -/
theorem instToBlock_iff (p : Prog) (i b : Nat) :
    instToBlock p.blocks i = some b ↔ ∃ x, p.blocks[b]? = some x ∧ x.1 ≤ i ∧ i < x.2 := by
  unfold instToBlock
  rw [List.findIdx?_eq_some_iff_getElem]
  constructor
  · rintro ⟨h, h1, _⟩
    rw [Bool.and_eq_true, decide_eq_true_eq, decide_eq_true_eq] at h1
    exact ⟨_, List.getElem?_eq_getElem h, h1⟩
  · rintro ⟨x, hx, h1, h2⟩
    obtain ⟨h, rfl⟩ := List.getElem?_eq_some_iff.1 hx
    refine ⟨h, by simp [h1, h2], fun j hj => ?_⟩
    have := p.blocks_lt (List.getElem?_eq_getElem (by omega : j < p.blocks.length)) hx hj
    simp only [Bool.and_eq_true, decide_eq_true_eq, not_and]
    omega

end Verif
