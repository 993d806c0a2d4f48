import Verif.Lemmas.DedupRound
import Verif.Lemmas.FlowBlocks
/-!
# The state between two rounds of deduplication

Every live instruction is entered: it is a reachable jump destination, or the instruction before it is live
and leads to it. Marking dead code then finds nothing more to mark.
-/

namespace Verif
open Spec

/-- Instruction `j` is a reachable jump destination. -/
def RJ (p : Prog) (j : Nat) : Prop := ∃ d, p.insts[j]? = some d ∧ d.isReachableJumpdest p.hasDyn = true

/-- Every live instruction but the first is entered. -/
def Anch (p : Prog) : Prop := ∀ j, 0 < j → LiveAt p.insts j → RJ p j ∨
  ∃ d, p.insts[j - 1]? = some d ∧ d.flags.deadCode = false ∧
    (d.canFallThrough = true ∨ (Single d = true ∧ d.data = j))

theorem RJ.leader {p : Prog} {j : Nat} (h : RJ p j) : p.isLeader j = true := by
  obtain ⟨d, h1, h2⟩ := h
  unfold Prog.isLeader
  rw [h1, Option.any_some, h2]
  simp

theorem leader_after {p : Prog} {j : Nat} {d : InstData} (h0 : 0 < j) (hd : p.insts[j - 1]? = some d)
    (hl : d.flags.deadCode = false) (hb : d.isBranching = true) : p.isLeader j = true := by
  unfold Prog.isLeader
  rw [hd]
  simp [h0, hl, hb]

theorem leader_cases {p : Prog} {j : Nat} (h : p.isLeader j = true) : j = 0 ∨ RJ p j ∨
    (0 < j ∧ ∃ d, p.insts[j - 1]? = some d ∧ d.flags.deadCode = false ∧ d.isBranching = true) := by
  unfold Prog.isLeader at h
  simp only [Bool.or_eq_true, beq_iff_eq, Bool.and_eq_true, decide_eq_true_eq] at h
  rcases h with (h | h) | ⟨h0, h⟩
  · exact .inl h
  · right; left
    cases hg : p.insts[j]? with
    | none => rw [hg] at h; simp at h
    | some d => rw [hg] at h; exact ⟨d, hg, h⟩
  · right; right
    cases hg : p.insts[j - 1]? with
    | none => rw [hg] at h; simp at h
    | some d =>
      rw [hg, Option.any_some] at h
      simp only [Bool.and_eq_true, Bool.not_eq_true', Bool.or_eq_true] at h
      refine ⟨h0, d, rfl, h.1, ?_⟩
      rcases h.2 with h | h
      · exact h
      · unfold InstData.isBranching; rw [h]; simp

theorem not_fall_branching {d : InstData} (h : d.canFallThrough = false) : d.isBranching = true := by
  unfold InstData.canFallThrough at h
  unfold InstData.isBranching InstData.isJump
  cases h1 : d.isDiverging with
  | true => simp
  | false =>
    rw [h1] at h
    simp only [Bool.not_false, Bool.true_and, Bool.and_eq_false_iff, bne_eq_false_iff_eq, Bool.not_eq_false'] at h
    rcases h with h | h
    · simp [h]
    · unfold InstData.hasConstJumpiCondition at h
      rw [Bool.and_eq_true] at h
      simp [h.1]

section anch
variable {p : Prog} (ha : Anch p)
include ha

theorem Anch.start {b : Nat × Nat} (hb : b ∈ p.blocks) : p.isLeader b.1 = true := by
  rcases p.blocks_start hb with h | h | h
  · rw [h]; simp [Prog.isLeader]
  · exact h
  · by_cases h0 : b.1 = 0
    · rw [h0]; simp [Prog.isLeader]
    · rcases ha b.1 (by omega) (p.blocks_ok.first b hb) with h1 | ⟨d, h1, h2, _⟩
      · exact h1.leader
      · exact absurd ⟨d, h1, h2⟩ h

theorem Anch.live_lead {j : Nat} (h : LiveAt p.insts j) (hd : j = 0 ∨ ¬ LiveAt p.insts (j - 1)) :
    p.isLeader j = true := by
  by_cases h0 : j = 0
  · rw [h0]; simp [Prog.isLeader]
  · rcases ha j (by omega) h with h1 | ⟨d, h1, h2, _⟩
    · exact h1.leader
    · rcases hd with hd | hd
      · exact absurd hd h0
      · exact absurd ⟨d, h1, h2⟩ hd

theorem Anch.block_live {b : Nat × Nat} (hb : b ∈ p.blocks) {j : Nat} (h1 : b.1 ≤ j) (h2 : j < b.2) :
    LiveAt p.insts j := by
  -- going down from the last instruction of the block
  suffices h : ∀ n, n < b.2 - b.1 → LiveAt p.insts (b.2 - 1 - n) by
    have := h (b.2 - 1 - j) (by omega)
    rwa [show b.2 - 1 - (b.2 - 1 - j) = j by omega] at this
  intro n
  induction n with
  | zero => intro _; exact p.blocks_ok.last b hb
  | succ n ih =>
    intro hn
    by_cases hl : LiveAt p.insts (b.2 - 1 - (n + 1))
    · exact hl
    · exfalso
      have := ha.live_lead (ih (by omega)) (.inr (by rwa [show b.2 - 1 - n - 1 = b.2 - 1 - (n + 1) by omega]))
      rw [p.blocks_ok.inside b hb _ (by omega) (by omega)] at this
      simp at this

theorem Anch.inner_fall {b : Nat × Nat} (hb : b ∈ p.blocks) {j : Nat} (h1 : b.1 ≤ j) (h2 : j + 1 < b.2) {d : InstData}
    (hd : p.insts[j]? = some d) : d.isBranching = false := by
  obtain ⟨d', hd', hl⟩ := ha.block_live hb h1 (by omega : j < b.2)
  rw [hd] at hd'; cases hd'
  cases hbr : d.isBranching with
  | false => rfl
  | true =>
    have := leader_after (p := p) (j := j + 1) (by omega) (by simpa using hd) hl hbr
    rw [p.blocks_ok.inside b hb _ (by omega) h2] at this
    simp at this

theorem Anch.mem_blocks (a b : Nat) : (a, b) ∈ p.blocks ↔
    p.isLeader a = true ∧ a < b ∧ (∀ j, a ≤ j → j < b → LiveAt p.insts j) ∧
      (∀ j, a < j → j < b → p.isLeader j = false) ∧ (LiveAt p.insts b → p.isLeader b = true) := by
  have hfw : ∀ a b, (a, b) ∈ p.blocks →
    p.isLeader a = true ∧ a < b ∧ (∀ j, a ≤ j → j < b → LiveAt p.insts j) ∧
      (∀ j, a < j → j < b → p.isLeader j = false) ∧ (LiveAt p.insts b → p.isLeader b = true) := by
    intro a b h
    have hr := (p.blocks_ok.range _ h).2.1
    refine ⟨ha.start h, hr, fun j h1 h2 => ha.block_live h h1 h2, fun j h1 h2 => p.blocks_ok.inside _ h j h1 h2,
      fun hl => ?_⟩
    obtain ⟨y, hy, h1, h2⟩ := p.blocks_ok.cover b (by omega) hl
    obtain ⟨m, hm⟩ := List.mem_iff_getElem?.1 h
    obtain ⟨n, hn⟩ := List.mem_iff_getElem?.1 hy
    have hyr := (p.blocks_ok.range _ hy).2.1
    have hr' : a < b := hr
    have : y.1 = b := by
      rcases Nat.lt_trichotomy m n with hmn | hmn | hmn
      · have h3 : b ≤ y.1 := p.blocks_lt hm hn hmn
        omega
      · subst hmn
        rw [hm] at hn
        have hn := Option.some.inj hn
        rw [← hn] at h2
        have h2 : b < b := h2
        omega
      · have h3 : y.2 ≤ a := p.blocks_lt hn hm hmn
        omega
    rw [← this]
    exact ha.start hy
  refine ⟨hfw a b, fun ⟨h1, h2, h3, h4, h5⟩ => ?_⟩
  obtain ⟨y, hy, hya⟩ := p.leader_start (h3 a (Nat.le_refl _) h2) h1
  obtain ⟨y1, y2⟩ := y
  have hya : y1 = a := hya
  subst hya
  obtain ⟨g1, g2, g3, g4, g5⟩ := hfw _ _ hy
  have : y2 = b := by
    rcases Nat.lt_trichotomy y2 b with h | h | h
    · have := g5 (h3 y2 (by omega) h)
      rw [h4 y2 g2 h] at this; simp at this
    · exact h
    · have := h5 (g3 b (by omega) h)
      rw [g4 b h2 h] at this; simp at this
  rw [← this]
  exact hy

/-- Marking dead code marks nothing. -/
theorem Anch.markLoop : markLoop p.hasDyn 0 none p.insts = p.insts := by
  have hlive : ∀ (j : Nat) d d', p.insts[j]? = some d → (Verif.markLoop p.hasDyn 0 none p.insts)[j]? = some d' →
      d.flags.deadCode = false → d'.flags.deadCode = false := by
    intro j
    induction j with
    | zero =>
      intro d d' hd hd' hl
      cases hx : d'.flags.deadCode with
      | false => rfl
      | true => exact absurd rfl ((markLoop_new _ _ 0 none 0 d d' hd hd' hl hx).2.1 rfl)
    | succ j ih =>
      intro d d' hd hd' hl
      cases hx : d'.flags.deadCode with
      | false => rfl
      | true =>
        exfalso
        obtain ⟨a1, _, a3⟩ := markLoop_new _ _ 0 none (j + 1) d d' hd hd' hl hx
        have a3 := a3 (by omega)
        rw [Nat.add_sub_cancel] at a3
        rcases ha (j + 1) (by omega) ⟨d, hd, hl⟩ with ⟨e, h1, h2⟩ | ⟨e, h1, h2, h3⟩
        · rw [hd] at h1; cases h1
          rw [a1] at h2; simp at h2
        · rw [Nat.add_sub_cancel] at h1
          rcases a3 with ⟨e', g1, g2⟩ | ⟨e', g1, g2, g3⟩
          · rw [ih e e' h1 g1 h2] at g2; simp at g2
          · rw [h1] at g1; cases g1
            rcases h3 with h3 | ⟨h3, h4⟩
            · rw [g2] at h3; simp at h3
            · refine g3 ⟨?_, ?_⟩
              · unfold Single at h3
                simp only [Bool.and_eq_true] at h3
                exact h3.1.1
              · rw [Nat.zero_add]; exact h4
  apply List.ext_getElem?
  intro j
  have hlen : (Verif.markLoop p.hasDyn 0 none p.insts).length = p.insts.length :=
    (markLoop_mono p.hasDyn p.insts 0 none).1.len
  cases hd : p.insts[j]? with
  | none =>
    rw [List.getElem?_eq_none_iff] at hd ⊢
    omega
  | some d =>
    have hj := (List.getElem?_eq_some_iff.1 hd).1
    have hd' : (Verif.markLoop p.hasDyn 0 none p.insts)[j]? = some _ :=
      List.getElem?_eq_getElem (by omega)
    rw [hd']
    rcases markLoop_get _ _ 0 none j d _ hd hd' with h | h
    · rw [h]
    · cases hl : d.flags.deadCode with
      | false =>
        have := hlive j d _ hd hd' hl
        rw [h] at this
        simp at this
      | true =>
        rw [h]
        congr 1
        cases d with
        | mk o f g io da r => cases f; simp_all

end anch

theorem markedJump_self (l : List InstData) : markedJump l l = false := by
  induction l with
  | nil => rfl
  | cons d l ih =>
    rw [markedJump, ih]
    cases d.flags.deadCode <;> simp

theorem Anch.markDeadR {p : Prog} (ha : Anch p) (m : Redirects) (n : Nat) : markDeadR m (n + 1) p = some p := by
  unfold Verif.markDeadR
  dsimp only
  rw [ha.markLoop, markedJump_self]
  simp

/-! ## Reachable jump destinations through redirects -/

theorem mem_mapM_follow {m : Redirects} (hm : Earlier m.get) (l : List Nat) : ∀ {r : List Nat},
    l.mapM (follow m) = some r → ∀ j, j ∈ r ↔ ∃ t ∈ l, Ends m.get t j := by
  induction l with
  | nil => intro r h j; cases h; simp
  | cons a l ih =>
    intro r h j
    obtain ⟨e, he, hend⟩ := follow_ends hm a
    obtain ⟨r', hr'⟩ := mapM_follow_some hm l
    rw [List.mapM_cons, he, hr'] at h
    cases h
    rw [List.mem_cons, ih hr' j]
    constructor
    · rintro (rfl | ⟨t, h1, h2⟩)
      · exact ⟨a, List.mem_cons_self, hend⟩
      · exact ⟨t, List.mem_cons_of_mem _ h1, h2⟩
    · rintro ⟨t, h1, h2⟩
      rcases List.mem_cons.1 h1 with rfl | h1
      · exact .inl (h2.unique hend)
      · exact .inr ⟨t, h1, h2⟩

/-- A live jump to `t`. -/
def JumpsTo (p : Prog) (t : Nat) : Prop := ∃ i d, p.insts[i]? = some d ∧ t ∈ p.targetsOf i d

/-- The flag is exact. -/
def Exact (m : Redirects) (p : Prog) : Prop := ∀ (j : Nat) d, p.insts[j]? = some d → d.isJumpdest = true →
  (d.reachable = true ↔ ∃ t, JumpsTo p t ∧ Ends m.get t j)

theorem targetsOf_reach {p p' : Prog} (hm : p'.multi = p.multi) (i : Nat) (d : InstData) (r : Bool) :
    p'.targetsOf i { d with reachable := r } = p.targetsOf i d := by
  unfold Prog.targetsOf InstData.isStaticJump InstData.isJump InstData.staticJumpTarget
  rw [hm]

theorem reachableR_exact {m : Redirects} (hm : Earlier m.get) {p p' : Prog} (h : p.reachableR m = some p') :
    p'.multi = p.multi ∧ p'.hasDyn = p.hasDyn ∧ p'.insts.length = p.insts.length ∧
    (∀ (i : Nat) d', p'.insts[i]? = some d' → ∃ d r, p.insts[i]? = some d ∧ d' = { d with reachable := r }) ∧
    (∀ t, JumpsTo p' t ↔ JumpsTo p t) ∧ Exact m p' := by
  unfold Prog.reachableR at h
  obtain ⟨r, hr, rfl⟩ := Option.map_eq_some_iff.1 h
  have hget : ∀ (i : Nat) d', (p.insts.mapIdx fun i d => if d.isJumpdest then { d with reachable := r.contains i }
      else d)[i]? = some d' → ∃ d r', p.insts[i]? = some d ∧ d' = { d with reachable := r' } ∧
        (d.isJumpdest = true → r' = r.contains i) := by
    intro i d' hd'
    rw [List.getElem?_mapIdx] at hd'
    obtain ⟨d, h1, rfl⟩ := Option.map_eq_some_iff.1 hd'
    by_cases hj : d.isJumpdest = true
    · exact ⟨d, r.contains i, h1, by rw [if_pos hj], fun _ => rfl⟩
    · exact ⟨d, d.reachable, h1, by rw [if_neg hj], fun h => absurd h hj⟩
  have hto : ∀ t, JumpsTo { p with insts := p.insts.mapIdx fun i d => if d.isJumpdest then { d with reachable := r.contains i }
      else d } t ↔ JumpsTo p t := by
    intro t
    constructor
    · rintro ⟨i, d', h1, h2⟩
      obtain ⟨d, r', g1, rfl, _⟩ := hget i d' h1
      exact ⟨i, d, g1, targetsOf_reach (p := p) (p' := { p with insts := _ }) rfl i d r' ▸ h2⟩
    · rintro ⟨i, d, h1, h2⟩
      have hlt : i < (p.insts.mapIdx fun i d => if d.isJumpdest then { d with reachable := r.contains i }
        else d).length := by simpa using (List.getElem?_eq_some_iff.1 h1).1
      obtain ⟨d0, r', g1, g2, _⟩ := hget i _ (List.getElem?_eq_getElem hlt)
      rw [h1] at g1; cases g1
      refine ⟨i, _, List.getElem?_eq_getElem hlt, ?_⟩
      rw [g2]
      exact (targetsOf_reach (p := p) (p' := { p with insts := _ }) rfl i d r').symm ▸ h2
  refine ⟨rfl, rfl, by simp, fun i d' hd' => ?_, hto, fun j d' hd' hj => ?_⟩
  · obtain ⟨d, r', g1, g2, _⟩ := hget i d' hd'
    exact ⟨d, r', g1, g2⟩
  · obtain ⟨d, r', g1, rfl, g3⟩ := hget j d' hd'
    have hj : d.isJumpdest = true := hj
    show r' = true ↔ _
    rw [g3 hj, List.contains_iff_mem, mem_mapM_follow hm _ hr]
    constructor
    · rintro ⟨t, h1, h2⟩
      obtain ⟨i, di, h3, h4⟩ := (mem_collect p _ 0 t).1 h1
      rw [Nat.zero_add] at h4
      exact ⟨t, (hto t).2 ⟨i, di, h3, h4⟩, h2⟩
    · rintro ⟨t, h1, h2⟩
      obtain ⟨i, di, h3, h4⟩ := (hto t).1 h1
      exact ⟨t, (mem_collect p _ 0 t).2 ⟨i, di, h3, by rw [Nat.zero_add]; exact h4⟩, h2⟩

end Verif
