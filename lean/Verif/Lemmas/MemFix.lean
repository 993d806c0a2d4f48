import Verif.Lemmas.MemSections
/-!
# Helper lemmas: the fixpoint of the memory analysis
-/

namespace Verif
open Spec

/-- Entry state `s` accounts for everything arriving with state `e`. -/
def Covers (s e : MemState) : Prop :=
  ∀ ke, e.known = some ke → ∃ ks, s.known = some ks ∧ ks ≤ ke ∧ ∀ x, s.exact = some x → e.exact = some x

theorem Covers.refl (s : MemState) : Covers s s := fun k h => ⟨k, h, Nat.le_refl _, fun _ h => h⟩

theorem Covers.trans {a b c : MemState} (h1 : Covers a b) (h2 : Covers b c) : Covers a c := by
  intro k hk
  obtain ⟨k2, e2, l2, x2⟩ := h2 k hk
  obtain ⟨k1, e1, l1, x1⟩ := h1 k2 e2
  exact ⟨k1, e1, by omega, fun x h => x2 x (x1 x h)⟩

theorem Covers.cov {s e : MemState} {m : Nat} (h : Covers s e) (hc : Cov e m) : Cov s m := by
  obtain ⟨⟨k, hk, hkm⟩, hx⟩ := hc
  obtain ⟨ks, e1, l1, x1⟩ := h k hk
  exact ⟨⟨ks, e1, by omega⟩, fun x h => hx x (x1 x h)⟩

theorem join_left (s inc : MemState) : Covers (s.join inc) s := by
  intro k hk
  unfold MemState.join
  rw [hk]
  cases hi : inc.known with
  | none => exact ⟨k, hk, Nat.le_refl _, fun _ h => h⟩
  | some p =>
    refine ⟨_, rfl, by omega, fun x hx => ?_⟩
    simp only at hx
    cases hs : s.exact with
    | none => rw [hs] at hx; simp at hx
    | some y =>
      rw [hs] at hx
      cases hi2 : inc.exact with
      | none => rw [hi2] at hx; simp at hx
      | some z =>
        rw [hi2] at hx
        simp only at hx
        split at hx
        · exact hx
        · simp at hx

theorem join_right (s inc : MemState) : Covers (s.join inc) inc := by
  intro k hk
  unfold MemState.join
  rw [hk]
  cases hi : s.known with
  | none => exact ⟨k, hk, Nat.le_refl _, fun _ h => h⟩
  | some p =>
    refine ⟨_, rfl, by omega, fun x hx => ?_⟩
    simp only at hx
    cases hs : s.exact with
    | none => rw [hs] at hx; simp at hx
    | some y =>
      rw [hs] at hx
      cases hi2 : inc.exact with
      | none => rw [hi2] at hx; simp at hx
      | some z =>
        rw [hi2] at hx
        simp only at hx
        split at hx
        · rename_i e; rw [← hx, e]
        · simp at hx

/-- The state of a block. -/
def MemFix.get (f : MemFix) (b : Nat) : MemState := (f.states[b]?).getD {}

/-- `f'` is later than `f`: states only go down, changed blocks are waiting. -/
structure Later (f f' : MemFix) : Prop where
  len : f'.states.length = f.states.length
  down : ∀ j, Covers (f'.get j) (f.get j)
  work : ∀ j ∈ f.work, j ∈ f'.work
  changed : ∀ j, f'.get j ≠ f.get j → j ∈ f'.work

theorem Later.refl (f : MemFix) : Later f f :=
  ⟨rfl, fun _ => Covers.refl _, fun _ h => h, fun _ h => absurd rfl h⟩

theorem Later.trans {f g h : MemFix} (h1 : Later f g) (h2 : Later g h) : Later f h where
  len := h2.len.trans h1.len
  down j := (h2.down j).trans (h1.down j)
  work j hj := h2.work j (h1.work j hj)
  changed j hj := by
    by_cases e : g.get j = f.get j
    · exact h2.changed j (by rw [e]; exact hj)
    · exact h2.work j (h1.changed j e)

theorem mem_pushWork {w : List Nat} {b j : Nat} : j ∈ pushWork w b ↔ j ∈ w ∨ j = b := by
  unfold pushWork
  split
  · rename_i h
    rw [List.contains_iff_mem] at h
    constructor
    · exact .inl
    · rintro (h' | rfl)
      · exact h'
      · exact h
  · simp

theorem update_later (f : MemFix) (b : Nat) (inc : MemState) (hb : b < f.states.length) :
    Later f (f.update b inc) ∧ Covers ((f.update b inc).get b) inc ∧ (f.update b inc).dyn = f.dyn := by
  unfold MemFix.update
  simp only
  split
  · rename_i h
    refine ⟨Later.refl f, ?_, rfl⟩
    unfold MemFix.get
    have := join_right ((f.states[b]?).getD {}) inc
    rw [h] at this
    exact this
  · have hg : ∀ j, ({ f with states := f.states.set b ((f.states[b]?.getD {}).join inc), work := pushWork f.work b } :
        MemFix).get j = if j = b then ((f.states[b]?.getD {}).join inc) else f.get j := by
      intro j
      unfold MemFix.get
      simp only
      rw [List.getElem?_set]
      by_cases e : b = j
      · subst e; simp [hb]
      · rw [if_neg e, if_neg (Ne.symm e)]
    refine ⟨⟨by simp, fun j => ?_, fun j hj => mem_pushWork.2 (.inl hj), fun j hj => ?_⟩, ?_, rfl⟩
    · rw [hg]
      split
      · rename_i e; subst e; exact join_left _ _
      · exact Covers.refl _
    · rw [hg] at hj
      split at hj
      · rename_i e; exact mem_pushWork.2 (.inr e)
      · exact absurd rfl hj
    · rw [hg, if_pos rfl]; exact join_right _ _

theorem updates_later (L : List Nat) (inc : MemState) (f : MemFix) (hL : ∀ s ∈ L, s < f.states.length) :
    Later f (L.foldl (fun f s => f.update s inc) f) ∧
      (∀ s ∈ L, Covers ((L.foldl (fun f s => f.update s inc) f).get s) inc) ∧
      (L.foldl (fun f s => f.update s inc) f).dyn = f.dyn := by
  induction L generalizing f with
  | nil => exact ⟨Later.refl f, by simp, rfl⟩
  | cons s L ih =>
    obtain ⟨u1, u2, u3⟩ := update_later f s inc (hL s (by simp))
    obtain ⟨i1, i2, i3⟩ := ih (f.update s inc) (fun x hx => by rw [u1.len]; exact hL x (List.mem_cons_of_mem _ hx))
    rw [List.foldl_cons]
    refine ⟨u1.trans i1, fun x hx => ?_, i3.trans u3⟩
    rcases List.mem_cons.1 hx with rfl | hx
    · exact (i1.down x).trans u2
    · exact i2 x hx

/-- Successors exist. -/
def SuccsOk (bs : List MBlock) : Prop := ∀ blk ∈ bs, ∀ s ∈ blk.succs, s < bs.length

/-- The invariant of the worklist loop; blocks in `skip` are exempt. -/
structure MInv (st : AIState) (bs : List MBlock) (skip : List Nat) (f : MemFix) : Prop where
  len : f.states.length = bs.length
  start : Covers (f.get 0) { known := some 0, exact := some 0 }
  closed : ∀ b blk, bs[b]? = some blk → b ∉ skip →
    (∀ s ∈ blk.succs, Covers (f.get s) (blk.exit st (f.get b))) ∧
      (blk.dynJump = true → Covers f.dyn (blk.exit st (f.get b)))
  dyn : ∀ t blk, bs[t]? = some blk → blk.dynTarget = true → Covers (f.get t) f.dyn

theorem memStep_inv {st : AIState} {bs : List MBlock} {b : Nat} {f : MemFix} (hs : SuccsOk bs)
    (h : MInv st bs (b :: f.work) f) :
    MInv st bs (memStep st bs b f).work (memStep st bs b f) := by
  -- a later state with the same or a lower dynamic state, closed for `b`
  have key : ∀ f' : MemFix, Later f f' → Covers f'.dyn f.dyn →
      (∀ t blk, bs[t]? = some blk → blk.dynTarget = true → Covers (f'.get t) f'.dyn) →
      (∀ blk, bs[b]? = some blk → (∀ s ∈ blk.succs, Covers (f'.get s) (blk.exit st (f.get b))) ∧
        (blk.dynJump = true → Covers f'.dyn (blk.exit st (f.get b)))) → MInv st bs f'.work f' := by
    intro f' hl hd ht hb
    refine ⟨hl.len.trans h.len, (hl.down 0).trans h.start, fun j blk hj hw => ?_, ht⟩
    have hsame : f'.get j = f.get j := Classical.byContradiction fun hne => hw (hl.changed j hne)
    rw [hsame]
    by_cases e : j = b
    · subst e
      exact hb blk hj
    · obtain ⟨c1, c2⟩ := h.closed j blk hj (by
        intro hm
        rcases List.mem_cons.1 hm with hm | hm
        · exact e hm
        · exact hw (hl.work j hm))
      exact ⟨fun s hs => (hl.down s).trans (c1 s hs), fun hdj => hd.trans (c2 hdj)⟩
  unfold memStep
  cases hblk : bs[b]? with
  | none => exact key f (Later.refl f) (Covers.refl _) h.dyn (by intro blk hb; rw [hblk] at hb; simp at hb)
  | some blk =>
    simp only
    split
    · rename_i hnone
      refine key f (Later.refl f) (Covers.refl _) h.dyn ?_
      intro blk' hb
      rw [hblk] at hb
      have := Option.some.inj hb
      subst this
      have hn : (blk.exit st (f.get b)).known = none := by
        unfold MemFix.get
        simpa using hnone
      exact ⟨fun s _ k hk => by rw [hn] at hk; simp at hk, fun _ k hk => by rw [hn] at hk; simp at hk⟩
    · obtain ⟨u1, u2, u3⟩ := updates_later blk.succs (blk.exit st (f.get b)) f
        (fun s hs' => by rw [h.len]; exact hs blk (List.mem_of_getElem? hblk) s hs')
      have e0 : (f.states[b]?).getD {} = f.get b := rfl
      rw [e0]
      generalize hf1 : blk.succs.foldl (fun f' s => f'.update s (blk.exit st (f.get b))) f = f1 at *
      have closeSame : f1.dyn = f.dyn → (blk.dynJump = true → Covers f1.dyn (blk.exit st (f.get b))) →
          MInv st bs f1.work f1 := by
        intro hd hc
        refine key f1 u1 (by rw [hd]; exact Covers.refl _) (fun t bt ht hdt => ?_) (fun blk' hb => ?_)
        · rw [hd]; exact (u1.down t).trans (h.dyn t bt ht hdt)
        · rw [hblk] at hb
          have := Option.some.inj hb
          subst this
          exact ⟨u2, hc⟩
      split
      · rename_i hdj
        split
        · rename_i hsame
          refine closeSame u3 (fun _ => ?_)
          have := join_right f1.dyn (blk.exit st (f.get b))
          rw [hsame] at this
          exact this
        · -- the dynamic state changed: all targets are updated
          generalize hd : f1.dyn.join (blk.exit st (f.get b)) = d
          generalize hT : ((List.range bs.length).filter fun t => (bs[t]?).any (·.dynTarget)) = T
          have hTlt : ∀ t ∈ T, t < ({ f1 with dyn := d } : MemFix).states.length := by
            intro t ht
            rw [← hT] at ht
            have := List.mem_range.1 (List.mem_filter.1 ht).1
            show t < f1.states.length
            rw [u1.len, h.len]; exact this
          obtain ⟨v1, v2, v3⟩ := updates_later T d { f1 with dyn := d } hTlt
          generalize hf2 : T.foldl (fun f t => f.update t d) { f1 with dyn := d } = f2 at *
          have v1' : Later f1 f2 := ⟨v1.len, v1.down, v1.work, v1.changed⟩
          have hdyn : f2.dyn = d := v3
          refine key f2 (u1.trans v1') ?_ (fun t bt ht hdt => ?_) (fun blk' hb => ?_)
          · rw [hdyn, ← hd, ← u3]; exact join_left _ _
          · rw [hdyn]
            refine v2 t ?_
            rw [← hT, List.mem_filter, List.mem_range]
            refine ⟨(List.getElem?_eq_some_iff.1 ht).1, by rw [ht]; simpa using hdt⟩
          · rw [hblk] at hb
            have := Option.some.inj hb
            subst this
            refine ⟨fun s hs' => (v1'.down s).trans (u2 s hs'), fun _ => ?_⟩
            rw [hdyn, ← hd]; exact join_right _ _
      · rename_i hdj
        exact closeSame u3 (fun h => absurd h hdj)

theorem memLoop_inv {st : AIState} {bs : List MBlock} (hs : SuccsOk bs) : ∀ (fuel : Nat) (f f' : MemFix),
    MInv st bs f.work f → memLoop st bs fuel f = some f' → MInv st bs [] f' := by
  intro fuel
  induction fuel with
  | zero =>
    intro f f' h e
    unfold memLoop at e
    split at e
    · rename_i hw
      rw [← Option.some.inj e]; rw [hw] at h; exact h
    · simp at e
  | succ fuel ih =>
    intro f f' h e
    unfold memLoop at e
    split at e
    · rename_i hw
      rw [← Option.some.inj e]; rw [hw] at h; exact h
    · rename_i b w hw
      refine ih _ f' (memStep_inv hs ?_) e
      rw [hw] at h
      exact ⟨h.len, h.start, h.closed, h.dyn⟩

theorem memInit_inv {st : AIState} {bs : List MBlock} (hne : bs ≠ []) : MInv st bs (memInit bs).work (memInit bs) := by
  have hpos : 0 < bs.length := List.length_pos_iff.2 hne
  have hg : ∀ j, (memInit bs).get j = if j = 0 then { known := some 0, exact := some 0 } else {} := by
    intro j
    unfold memInit MemFix.get
    simp only
    rw [List.getElem?_set]
    by_cases e : 0 = j
    · subst e; simp [hpos]
    · rw [if_neg e, if_neg (Ne.symm e), List.getElem?_replicate]
      split <;> rfl
  refine ⟨by simp [memInit], by rw [hg]; exact Covers.refl _, fun b blk hb hw => ?_, fun t blk _ _ k hk => ?_⟩
  · have hb0 : b ≠ 0 := by simpa [memInit] using hw
    have : (blk.exit st ((memInit bs).get b)).known = none := by
      rw [hg, if_neg hb0]; rfl
    exact ⟨fun s _ k hk => by rw [this] at hk; simp at hk, fun _ k hk => by rw [this] at hk; simp at hk⟩
  · simp [memInit] at hk

/-! ## Soundness -/

theorem path_cov {st : AIState} {bs : List MBlock} {f : MemFix} (h : MInv st bs [] f)
    (hlog : ∀ blk ∈ bs, ∀ p ∈ blk.insts, NoSmallTopic st p) {b m : Nat}
    (hp : MemPath st bs b m) : Cov (f.get b) m := by
  induction hp with
  | start => exact h.start.cov ⟨⟨0, rfl, Nat.le_refl _⟩, fun x hx => by simp at hx; omega⟩
  | @edge b m m' b' blk _ hblk hr he ih =>
    obtain ⟨c1, c2⟩ := h.closed b blk hblk (by simp)
    obtain ⟨⟨k, hk, _⟩, _⟩ := id ih
    have hx : Cov (blk.exit st (f.get b)) m' := by
      rw [exit_eq hk]
      exact cov_runs hr (hlog blk (List.mem_of_getElem? hblk)) ih
    rcases he with he | ⟨hd, blk', hb', ht⟩
    · exact (c1 b' he).cov hx
    · exact (h.dyn b' blk' hb' ht).cov ((c2 hd).cov hx)

/-! ## Termination -/

/-- How far a state can still go down. -/
def weight (K : Nat) (s : MemState) : Nat :=
  match s.known with
  | none => 2 * K + 2
  | some k => 2 * k + if s.exact.isSome then 1 else 0

/-- Known sizes are bounded. -/
def Bnd (K : Nat) (s : MemState) : Prop := ∀ k, s.known = some k → k ≤ K

theorem join_weight {K : Nat} {s inc : MemState} (hi : Bnd K inc) (hne : s.join inc ≠ s) :
    weight K (s.join inc) < weight K s := by
  revert hne
  unfold MemState.join
  cases hk : inc.known with
  | none => intro h; exact absurd rfl h
  | some p =>
    have hp := hi p hk
    cases hs : s.known with
    | none =>
      intro _
      simp only [weight, hk, hs]
      split <;> omega
    | some e =>
      simp only
      intro hne
      obtain ⟨sk, sx⟩ := s
      obtain ⟨ik, ix⟩ := inc
      simp only at hk hs hne ⊢
      subst hk hs
      simp only [weight]
      by_cases hlt : p < e
      · rw [Nat.min_eq_right (by omega)]
        have h1 : ∀ o : Option Nat, (if o.isSome then 1 else 0 : Nat) ≤ 1 := by intro o; split <;> omega
        exact Nat.lt_of_lt_of_le (Nat.add_lt_add_of_lt_of_le (Nat.lt_succ_of_le (Nat.le_refl _)) (h1 _)) (by
          have := h1 sx; omega)
      · rw [Nat.min_eq_left (by omega)] at hne ⊢
        cases sx with
        | none => exact absurd rfl hne
        | some x =>
          cases ix with
          | none => simp
          | some y =>
            simp only at hne ⊢
            split at hne
            · exact absurd rfl hne
            · rename_i h; simp [h]

theorem join_bnd {K : Nat} {s inc : MemState} (hs : Bnd K s) (hi : Bnd K inc) : Bnd K (s.join inc) := by
  unfold MemState.join
  cases hk : inc.known with
  | none => exact hs
  | some p =>
    cases he : s.known with
    | none => exact hi
    | some e =>
      intro k hk'
      have := Option.some.inj hk'
      have := hi p hk
      omega

theorem sum_set (w : MemState → Nat) (l : List MemState) (i : Nat) (x : MemState) (h : i < l.length) :
    ((l.set i x).map w).sum + w l[i] = (l.map w).sum + w x := by
  induction l generalizing i with
  | nil => simp at h
  | cons a l ih =>
    cases i with
    | zero => simp; omega
    | succ i =>
      have := ih i (by simpa using h)
      simp only [List.set_cons_succ, List.map_cons, List.sum_cons, List.getElem_cons_succ]
      omega

/-- The measure of the worklist loop. -/
def MemFix.measure (K : Nat) (f : MemFix) : Nat := 2 * (f.states.map (weight K)).sum + f.work.length

theorem update_measure {K : Nat} {f : MemFix} {b : Nat} {inc : MemState} (hb : b < f.states.length)
    (hi : Bnd K inc) (hall : ∀ s ∈ f.states, Bnd K s) :
    (f.update b inc).measure K ≤ f.measure K ∧ (∀ s ∈ (f.update b inc).states, Bnd K s) := by
  unfold MemFix.update
  simp only
  split
  · exact ⟨Nat.le_refl _, hall⟩
  · rename_i hne
    rw [List.getElem?_eq_getElem hb, Option.getD_some] at hne ⊢
    have hw := join_weight hi hne
    have hsum := sum_set (weight K) f.states b (f.states[b].join inc) hb
    have hl : (pushWork f.work b).length ≤ f.work.length + 1 := by
      unfold pushWork; split <;> simp
    refine ⟨?_, ?_⟩
    · unfold MemFix.measure
      simp only
      omega
    · intro s hs
      rcases List.mem_or_eq_of_mem_set hs with h | rfl
      · exact hall s h
      · exact join_bnd (hall _ (List.getElem_mem hb)) hi

theorem updates_measure {K : Nat} (L : List Nat) {inc : MemState} (hi : Bnd K inc) (f : MemFix)
    (hL : ∀ s ∈ L, s < f.states.length) (hall : ∀ s ∈ f.states, Bnd K s) :
    (L.foldl (fun f s => f.update s inc) f).measure K ≤ f.measure K ∧
      (∀ s ∈ (L.foldl (fun f s => f.update s inc) f).states, Bnd K s) := by
  induction L generalizing f with
  | nil => exact ⟨Nat.le_refl _, hall⟩
  | cons s L ih =>
    obtain ⟨u1, u2⟩ := update_measure (hL s (by simp)) hi hall
    obtain ⟨i1, i2⟩ := ih (f.update s inc) (fun x hx => by
      rw [(update_later f s inc (hL s (by simp))).1.len]; exact hL x (List.mem_cons_of_mem _ hx)) u2
    rw [List.foldl_cons]
    exact ⟨Nat.le_trans i1 u1, i2⟩

theorem memStep_measure {st : AIState} {bs : List MBlock} {b K : Nat} {f : MemFix} (hs : SuccsOk bs)
    (hlen : f.states.length = bs.length) (hK : ∀ blk ∈ bs, (blk.summary st).1 ≤ K)
    (hall : ∀ s ∈ f.states, Bnd K s) (hd : Bnd K f.dyn) :
    (memStep st bs b f).measure K ≤ f.measure K ∧ (∀ s ∈ (memStep st bs b f).states, Bnd K s) ∧
      Bnd K (memStep st bs b f).dyn ∧ (memStep st bs b f).states.length = bs.length := by
  unfold memStep
  cases hblk : bs[b]? with
  | none => exact ⟨Nat.le_refl _, hall, hd, hlen⟩
  | some blk =>
    simp only
    have hmem := List.mem_of_getElem? hblk
    have hget : Bnd K ((f.states[b]?).getD {}) := by
      cases hg : f.states[b]? with
      | none => intro k hk; simp at hk
      | some s => exact hall s (List.mem_of_getElem? hg)
    have hb : Bnd K (blk.exit st ((f.states[b]?).getD {})) := by
      intro k hk
      unfold MBlock.exit at hk
      obtain ⟨k', hk', e⟩ := Option.map_eq_some_iff.1 hk
      have := hget k' hk'
      have := hK blk hmem
      omega
    generalize blk.exit st ((f.states[b]?).getD {}) = e at *
    split
    · exact ⟨Nat.le_refl _, hall, hd, hlen⟩
    · have hL : ∀ s ∈ blk.succs, s < f.states.length := fun s h => by rw [hlen]; exact hs blk hmem s h
      obtain ⟨u1, u2⟩ := updates_measure blk.succs hb f hL hall
      obtain ⟨w1, _, w3⟩ := updates_later blk.succs e f hL
      generalize blk.succs.foldl (fun f s => f.update s e) f = f1 at *
      have hl1 : f1.states.length = bs.length := w1.len.trans hlen
      split
      · split
        · exact ⟨u1, u2, by rw [w3]; exact hd, hl1⟩
        · have hd' : Bnd K (f1.dyn.join e) := join_bnd (by rw [w3]; exact hd) hb
          have hT : ∀ t ∈ ((List.range bs.length).filter fun t => (bs[t]?).any (·.dynTarget)),
              t < ({ f1 with dyn := f1.dyn.join e } : MemFix).states.length := by
            intro t ht
            have := List.mem_range.1 (List.mem_filter.1 ht).1
            show t < f1.states.length
            rw [hl1]; exact this
          obtain ⟨v1, v2⟩ := updates_measure _ hd' { f1 with dyn := f1.dyn.join e } hT u2
          obtain ⟨x1, _, x3⟩ := updates_later _ (f1.dyn.join e) { f1 with dyn := f1.dyn.join e } hT
          exact ⟨Nat.le_trans v1 u1, v2, by rw [x3]; exact hd', x1.len.trans hl1⟩
      · exact ⟨u1, u2, by rw [w3]; exact hd, hl1⟩

theorem memLoop_total {st : AIState} {bs : List MBlock} {K : Nat} (hs : SuccsOk bs)
    (hK : ∀ blk ∈ bs, (blk.summary st).1 ≤ K) : ∀ (fuel : Nat) (f : MemFix), f.measure K ≤ fuel →
    f.states.length = bs.length → (∀ s ∈ f.states, Bnd K s) → Bnd K f.dyn → (memLoop st bs fuel f).isSome := by
  intro fuel
  induction fuel with
  | zero =>
    intro f hm _ _ _
    unfold memLoop
    have : f.work = [] := List.length_eq_zero_iff.1 (by unfold MemFix.measure at hm; omega)
    rw [this]; rfl
  | succ fuel ih =>
    intro f hm hl hall hd
    unfold memLoop
    cases hw : f.work with
    | nil => rfl
    | cons b w =>
      simp only
      obtain ⟨s1, s2, s3, s4⟩ := memStep_measure (st := st) (b := b) (f := { f with work := w }) hs hl hK hall hd
      refine ih _ ?_ s4 s2 s3
      have : f.measure K = ({ f with work := w } : MemFix).measure K + 1 := by
        unfold MemFix.measure; simp only [hw, List.length_cons]; omega
      omega

end Verif
