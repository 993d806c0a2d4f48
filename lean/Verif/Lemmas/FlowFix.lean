import Verif.Lemmas.FlowLocal
import Verif.Lemmas.MemFix
/-!
# The fixpoint of the global pass
-/

namespace Verif
open Spec

/-! ## Coverage -/

/-- The abstract stack describes the concrete one and is at least as high. -/
def CovStack (a : List AbsValue) (c : List Word) : Prop := AdmitsStack a c ∧ c.length ≤ a.length

/-- A block state covers a concrete stack. -/
def CovState (s : BlockState) (c : List Word) : Prop := ∃ a, s = .known a ∧ CovStack a c

theorem cov_join {s : BlockState} {inc : List AbsValue} {c : List Word} (hc : c.length ≤ 64)
    (h : CovState s c ∨ CovStack inc c) : CovState (s.join inc).1 c := by
  have hadm : AdmitsState (s.join inc).1 c := by
    apply admitsState_join
    rcases h with ⟨a, rfl, h⟩ | h
    · exact .inl h.1
    · exact .inr h.1
  cases s with
  | bottom =>
    have hi : CovStack inc c := by
      rcases h with ⟨a, h, _⟩ | h
      · cases h
      · exact h
    refine ⟨_, rfl, hadm, ?_⟩
    rw [List.length_take]
    have := hi.2
    show c.length ≤ min 64 _
    omega
  | known e =>
    refine ⟨_, rfl, hadm, ?_⟩
    rw [joinPadded_length]
    show c.length ≤ min _ 64
    rcases h with ⟨a, h, h'⟩ | h
    · cases h
      have := h'.2; omega
    · have := h.2; omega

theorem join_flag (s : BlockState) (inc : List AbsValue) : (s.join inc).2 = false → (s.join inc).1 = s := by
  cases s with
  | bottom => simp [BlockState.join]
  | known e => simp [BlockState.join]

theorem join_known (s : BlockState) (inc : List AbsValue) : ∃ a, (s.join inc).1 = .known a := by
  cases s with
  | bottom => exact ⟨_, rfl⟩
  | known e => exact ⟨_, rfl⟩

/-- What propagating to successors `l` does. -/
structure Propagated (l : List Nat) (out : List AbsValue) (st st' : List BlockState) (w w' : List Nat) : Prop where
  len : st'.length = st.length
  keep : ∀ (s : Nat) a, st[s]? = some (.known a) → ∃ a', st'[s]? = some (.known a') ∧ (a' = a ∨ s ∈ w') ∧
    ∀ c, c.length ≤ 64 → CovStack a c → CovStack a' c
  bot : ∀ (s : Nat), st'[s]? = some .bottom → st[s]? = some .bottom
  new : ∀ (s : Nat) a, st'[s]? = some (.known a) → st[s]? = some .bottom → s ∈ l ∧ s ∈ w'
  cov : ∀ (s : Nat) x, s ∈ l → st'[s]? = some x → ∀ c, c.length ≤ 64 → CovStack out c → CovState x c
  work : ∀ b ∈ w, b ∈ w'

theorem propagate_ok (out : List AbsValue) (st : List BlockState) (w : List Nat) (s : Nat) :
    Propagated [s] out st (propagate out (st, w) s).1 w (propagate out (st, w) s).2 := by
  unfold propagate
  dsimp only
  cases hs : st[s]? with
  | none =>
    refine ⟨rfl, fun t a h => ⟨a, h, .inl rfl, fun _ _ h => h⟩, fun t h => h, fun t a h h' => ?_, fun t x ht hx => ?_,
      fun b h => h⟩
    · dsimp only at h
      rw [h'] at h; simp at h
    · rw [List.mem_singleton] at ht; subst ht
      dsimp only at hx
      rw [hs] at hx; simp at hx
  | some x =>
    dsimp only
    have hlt := (List.getElem?_eq_some_iff.1 hs).1
    have hat : (st.set s (x.join out).1)[s]? = some (x.join out).1 := by
      rw [List.getElem?_set_self hlt]
    have hne : ∀ t, t ≠ s → (st.set s (x.join out).1)[t]? = st[t]? := fun t ht =>
      List.getElem?_set_ne (Ne.symm ht)
    have hw : ∀ b ∈ w, b ∈ (if (x.join out).2 then pushWork w s else w) := by
      intro b hb
      split
      · exact mem_pushWork.2 (.inl hb)
      · exact hb
    have hin : (x.join out).1 ≠ x → s ∈ (if (x.join out).2 then pushWork w s else w) := by
      intro h
      rw [if_pos]
      · exact mem_pushWork.2 (.inr rfl)
      · cases hf : (x.join out).2 with
        | true => rfl
        | false => exact absurd (join_flag x out hf) h
    refine ⟨List.length_set .., fun t a h => ?_, fun t h => ?_, fun t a h h' => ?_, fun t y ht hy => ?_, hw⟩
    · by_cases e : t = s
      · subst e
        rw [hs] at h
        cases h
        obtain ⟨a', ha'⟩ := join_known (.known a) out
        refine ⟨a', by rw [hat, ha'], ?_, fun c hc hcov => ?_⟩
        · by_cases e : a' = a
          · exact .inl e
          · exact .inr (hin (by rw [ha']; intro h; exact e (BlockState.known.inj h)))
        · obtain ⟨b, hb, h⟩ := cov_join (inc := out) hc (.inl ⟨a, rfl, hcov⟩)
          rw [ha'] at hb; cases hb
          exact h
      · exact ⟨a, by rw [hne t e]; exact h, .inl rfl, fun _ _ h => h⟩
    · by_cases e : t = s
      · subst e
        rw [hat] at h
        obtain ⟨a', ha'⟩ := join_known x out
        rw [ha'] at h; simp at h
      · rw [hne t e] at h; exact h
    · by_cases e : t = s
      · subst e
        refine ⟨List.mem_singleton.2 rfl, hin ?_⟩
        rw [hs] at h'; cases h'
        simp [BlockState.join]
      · rw [hne t e, h'] at h; simp at h
    · rw [List.mem_singleton] at ht; subst ht
      rw [hat] at hy; cases hy
      exact fun c hc hcov => cov_join hc (.inr hcov)

theorem propagated_fold (out : List AbsValue) : ∀ (l : List Nat) (st : List BlockState) (w : List Nat),
    Propagated l out st (l.foldl (propagate out) (st, w)).1 w (l.foldl (propagate out) (st, w)).2 := by
  intro l
  induction l with
  | nil =>
    intro st w
    exact ⟨rfl, fun t a h => ⟨a, h, .inl rfl, fun _ _ h => h⟩, fun t h => h, fun t a h h' => by
      rw [List.foldl_nil] at h; rw [h'] at h; simp at h, fun t x ht => by simp at ht, fun b h => h⟩
  | cons s l ih =>
    intro st w
    rw [List.foldl_cons]
    have h1 := propagate_ok out st w s
    revert h1
    generalize propagate out (st, w) s = q
    obtain ⟨st1, w1⟩ := q
    intro h1
    have h2 := ih st1 w1
    dsimp only at h1
    have known_or : ∀ (t : Nat) x, st1[t]? = some x → x = .bottom ∨ ∃ a, x = .known a := by
      intro t x _; cases x <;> simp
    refine ⟨h2.len.trans h1.len, fun t a h => ?_, fun t h => h1.bot t (h2.bot t h), fun t a h h' => ?_,
      fun t x ht hx c hc hcov => ?_, fun b hb => h2.work b (h1.work b hb)⟩
    · obtain ⟨a1, q1, q2, q3⟩ := h1.keep t a h
      obtain ⟨a2, r1, r2, r3⟩ := h2.keep t a1 q1
      refine ⟨a2, r1, ?_, fun c hc hcov => r3 c hc (q3 c hc hcov)⟩
      rcases r2 with rfl | r2
      · rcases q2 with rfl | q2
        · exact .inl rfl
        · exact .inr (h2.work _ q2)
      · exact .inr r2
    · cases hx : st1[t]? with
      | none =>
        exfalso
        rw [List.getElem?_eq_none_iff, ← h2.len, ← List.getElem?_eq_none_iff] at hx
        rw [hx] at h; simp at h
      | some x =>
        cases x with
        | bottom =>
          obtain ⟨q1, q2⟩ := h2.new t a h hx
          exact ⟨List.mem_cons_of_mem _ q1, q2⟩
        | known a1 =>
          obtain ⟨q1, q2⟩ := h1.new t a1 hx h'
          rw [List.mem_singleton] at q1
          subst q1
          exact ⟨List.mem_cons_self, h2.work _ q2⟩
    · rcases List.mem_cons.1 ht with rfl | ht
      · cases hy : st1[t]? with
        | none =>
          exfalso
          rw [List.getElem?_eq_none_iff, ← h2.len, ← List.getElem?_eq_none_iff] at hy
          rw [hy] at hx; simp at hx
        | some y =>
          obtain ⟨a, rfl, ha⟩ := h1.cov t y (List.mem_singleton.2 rfl) hy c hc hcov
          obtain ⟨a2, r1, r2, r3⟩ := h2.keep t a hy
          rw [r1] at hx; cases hx
          exact ⟨a2, rfl, r3 c hc ha⟩
      · exact h2.cov t x ht hx c hc hcov

/-! ## The invariant -/

/-- The block `b` was interpreted from its current state and its effects were propagated. -/
structure Done (code : Code) (limit : Nat) (p : Prog) (f : FixState) (b : Nat) (blk : Nat × Nat)
    (a : List AbsValue) : Prop where
  snap : SnapOf code limit p blk a f.ai
  out : ∀ c0 c1, CovStack a c0 → Along code p blk.1 c0 blk.2 c1 → c1.length ≤ 64 →
    ∀ s x, s ∈ p.succs p.blocks blk ++ (f.disc[b]?).getD [] → f.states[s]? = some x → CovState x c1
  disc : (∃ c0 c1, CovStack a c0 ∧ Along code p blk.1 c0 blk.2 c1) → ∀ d, p.insts[blk.2 - 1]? = some d →
    d.isJump = true → d.flags.staticJump = false → ∀ v l, (f.ai.inputs (blk.2 - 1)).getLast? = some v →
    v.constList = some l → ∀ w ∈ l, ∀ t s, code.target w = some t → instToBlock p.blocks t = some s →
    s ∈ (f.disc[b]?).getD []

/-- The invariant of the worklist loop. -/
structure FixInv (code : Code) (limit : Nat) (p : Prog) (loc : AIState) (work : List Nat) (f : FixState) : Prop where
  len : f.states.length = p.blocks.length
  zero : p.blocks ≠ [] → ∃ a, f.states[0]? = some (.known a)
  jd : ∀ (b : Nat), ∀ s ∈ (f.disc[b]?).getD [], ∃ (blk : Nat × Nat) (d : InstData), p.blocks[s]? = some blk ∧ p.insts[blk.1]? = some d ∧
    d.isJumpdest = true
  pred : ∀ (s : Nat) a, s ≠ 0 → f.states[s]? = some (.known a) → ∃ (q : Nat) (a' : List AbsValue) (blk : Nat × Nat), f.states[q]? = some (.known a') ∧
    p.blocks[q]? = some blk ∧ s ∈ p.succs p.blocks blk ++ (f.disc[q]?).getD []
  bot : ∀ (b : Nat) (blk : Nat × Nat), f.states[b]? = some .bottom → p.blocks[b]? = some blk → ∀ i, blk.1 ≤ i → i < blk.2 →
    f.ai.inputs i = loc.inputs i ∧ f.ai.outputs i = loc.outputs i
  done : ∀ (b : Nat) (blk : Nat × Nat) (a : List AbsValue), f.states[b]? = some (.known a) → p.blocks[b]? = some blk → b ∈ work ∨
    Done code limit p f b blk a

theorem mem_addSucc {l : List Nat} {a b : Nat} (h : a ∈ addSucc l b) : a ∈ l ∨ a = b := by
  unfold addSucc at h
  split at h
  · exact .inl h
  · rcases List.mem_append.1 h with h | h
    · exact .inl h
    · exact .inr (List.mem_singleton.1 h)

theorem mem_addSucc_fold {ts : List Nat} : ∀ {l : List Nat} {a : Nat}, a ∈ ts.foldl addSucc l ↔ a ∈ l ∨ a ∈ ts := by
  induction ts with
  | nil => intro l a; simp
  | cons t ts ih =>
    intro l a
    rw [List.foldl_cons, ih]
    constructor
    · rintro (h | h)
      · rcases mem_addSucc h with h | rfl
        · exact .inl h
        · exact .inr List.mem_cons_self
      · exact .inr (List.mem_cons_of_mem _ h)
    · rintro (h | h)
      · left
        unfold addSucc
        split
        · exact h
        · exact List.mem_append_left _ h
      · rcases List.mem_cons.1 h with rfl | h
        · left
          unfold addSucc
          split
          · rename_i hc; exact List.contains_iff_mem.1 hc
          · exact List.mem_append_right _ (List.mem_singleton.2 rfl)
        · exact .inr h

theorem mem_discover {code : Code} {bs : List (Nat × Nat)} {v : AbsValue} {db : List Nat} {s : Nat} :
    s ∈ discover code bs v db ↔ s ∈ db ∨ ∃ l w t, v.constList = some l ∧ w ∈ l ∧ code.target w = some t ∧
      instToBlock bs t = some s := by
  unfold discover
  cases hv : v.constList with
  | none => simp
  | some l =>
    dsimp only
    rw [mem_addSucc_fold, List.mem_filterMap]
    constructor
    · rintro (h | ⟨w, hw, h⟩)
      · exact .inl h
      · obtain ⟨t, h1, h2⟩ := Option.bind_eq_some_iff.1 h
        exact .inr ⟨l, w, t, rfl, hw, h1, h2⟩
    · rintro (h | ⟨l', w, t, h0, hw, h1, h2⟩)
      · exact .inl h
      · cases h0
        exact .inr ⟨w, hw, by rw [h1]; exact h2⟩

/-- In a program with live dynamic jumps every jump destination in a block starts it. -/
theorem dest_starts {p : Prog} (hdyn : p.hasDyn = true) {t s : Nat} {d : InstData} (hd : p.insts[t]? = some d)
    (hj : d.isJumpdest = true) (h : instToBlock p.blocks t = some s) : ∃ blk, p.blocks[s]? = some blk ∧ blk.1 = t := by
  obtain ⟨blk, hb, h1, h2⟩ := (instToBlock_iff p t s).1 h
  refine ⟨blk, hb, ?_⟩
  rcases Nat.lt_or_ge blk.1 t with hlt | hge
  · have := p.blocks_ok.inside blk (List.mem_of_getElem? hb) t hlt h2
    have hl : p.isLeader t = true := reachable_leader hd (by
      unfold InstData.isReachableJumpdest; rw [hj, hdyn]; simp)
    rw [hl] at this; simp at this
  · omega

theorem disc_grows {f : FixState} {b q : Nat} {db' : List Nat} (hb : ∀ s ∈ (f.disc[b]?).getD [], s ∈ db') {s : Nat}
    (h : s ∈ (f.disc[q]?).getD []) : s ∈ ((f.disc.set b db')[q]?).getD [] := by
  by_cases e : q = b
  · subst e
    cases hq : f.disc[q]? with
    | none => rw [hq] at h; simp at h
    | some l =>
      rw [List.getElem?_set_self (List.getElem?_eq_some_iff.1 hq).1]
      exact hb s h
  · rw [List.getElem?_set_ne (Ne.symm e)]; exact h

theorem disc_at {disc : List (List Nat)} {b : Nat} {db' : List Nat} {s : Nat}
    (h : s ∈ ((disc.set b db')[b]?).getD []) : s ∈ db' := by
  by_cases hl : b < disc.length
  · rw [List.getElem?_set_self hl] at h; exact h
  · rw [List.getElem?_eq_none (by rw [List.length_set]; omega)] at h; simp at h

/-- The edges known to leave the block after interpreting it. -/
def discNext (code : Code) (p : Prog) (bs : List (Nat × Nat)) (ai : AIState) (l : Nat) (db : List Nat) : List Nat :=
  match p.insts[l]? with
  | some d =>
    if d.isJump && !d.flags.staticJump then
      match (ai.inputs l).getLast? with
      | some v => discover code bs v db
      | none => db
    else db
  | none => db

theorem fixStep_known {code : Code} {limit : Nat} {p : Prog} {bs : List (Nat × Nat)} {b : Nat} {f : FixState}
    {a out : List AbsValue} {blk : Nat × Nat} (ha : f.states[b]? = some (.known a)) (hb : bs[b]? = some blk)
    (hr : (interpBlock code limit (p.blockInsts blk) f.ai a).1 = some out) (q : List BlockState × List Nat) (db' : List Nat)
    (hdb : discNext code p bs (interpBlock code limit (p.blockInsts blk) f.ai a).2 (blk.2 - 1) ((f.disc[b]?).getD []) = db')
    (hq : (p.succs bs blk ++ db').foldl (propagate out) (f.states, f.work) = q) :
    fixStep code limit p bs b f =
      FixState.mk q.1 (f.disc.set b db') (interpBlock code limit (p.blockInsts blk) f.ai a).2 q.2 := by
  unfold fixStep
  rw [ha, hb]
  dsimp only
  rw [hr]
  dsimp only
  subst hdb hq
  rfl

theorem fixStep_none {code : Code} {limit : Nat} {p : Prog} {bs : List (Nat × Nat)} {b : Nat} {f : FixState}
    {a : List AbsValue} {blk : Nat × Nat} (ha : f.states[b]? = some (.known a)) (hb : bs[b]? = some blk)
    (hr : (interpBlock code limit (p.blockInsts blk) f.ai a).1 = none) :
    fixStep code limit p bs b f = { f with ai := (interpBlock code limit (p.blockInsts blk) f.ai a).2 } := by
  unfold fixStep
  rw [ha, hb]
  dsimp only
  rw [hr]

/-- One iteration keeps the invariant. -/
theorem fixStep_inv {code : Code} {limit : Nat} {base : List InstData} {p : Prog} {loc : AIState}
    (wf : FlowWf code base) (hev : Evolves base p.insts) (hf : Flagged p) {b : Nat} {w : List Nat} {f : FixState}
    (hlen : f.disc.length = p.blocks.length) (h : FixInv code limit p loc (b :: w) f) :
    FixInv code limit p loc (fixStep code limit p p.blocks b { f with work := w }).work
      (fixStep code limit p p.blocks b { f with work := w }) ∧
    (fixStep code limit p p.blocks b { f with work := w }).disc.length = p.blocks.length := by
  have skip : (∀ a, f.states[b]? ≠ some (.known a)) ∨ p.blocks[b]? = none →
      FixInv code limit p loc w { f with work := w } := by
    intro hno
    refine ⟨h.len, h.zero, h.jd, h.pred, h.bot, fun b' blk a h1 h2 => ?_⟩
    rcases h.done b' blk a h1 h2 with hw | hd
    · rcases List.mem_cons.1 hw with rfl | hw
      · rcases hno with hno | hno
        · exact absurd h1 (hno a)
        · rw [h2] at hno; simp at hno
      · exact .inl hw
    · exact .inr ⟨hd.snap, hd.out, hd.disc⟩
  by_cases hk : ∃ a blk, f.states[b]? = some (.known a) ∧ p.blocks[b]? = some blk
  · obtain ⟨a, blk, ha, hblk⟩ := hk
    have hrange := p.blocks_ok.range blk (List.mem_of_getElem? hblk)
    have hlast := p.blocks_ok.last blk (List.mem_of_getElem? hblk)
    -- other blocks keep their snapshots
    have hdis : ∀ (b' : Nat) blk', b' ≠ b → p.blocks[b']? = some blk' → blk'.2 ≤ blk.1 ∨ blk.2 ≤ blk'.1 := by
      intro b' blk' hne hb'
      rcases Nat.lt_or_gt_of_ne hne with hlt | hgt
      · exact .inl (p.blocks_lt hb' hblk hlt)
      · exact .inr (p.blocks_lt hblk hb' hgt)
    have hkeep : ∀ (b' : Nat) blk', b' ≠ b → p.blocks[b']? = some blk' → ∀ i, blk'.1 ≤ i → i < blk'.2 →
        (interpBlock code limit (p.blockInsts blk) f.ai a).2.inputs i = f.ai.inputs i ∧
        (interpBlock code limit (p.blockInsts blk) f.ai a).2.outputs i = f.ai.outputs i := by
      intro b' blk' hne hb' i h1 h2
      refine interpBlock_other fun x hx => ?_
      obtain ⟨_, q1, q2⟩ := blockInsts_idx hx
      have := q2 (by omega)
      have := hdis b' blk' hne hb'
      omega
    have hsnap : SnapOf code limit p blk a (interpBlock code limit (p.blockInsts blk) f.ai a).2 :=
      ⟨f.ai, fun i _ _ => ⟨rfl, rfl⟩⟩
    -- executions of the whole block are followed
    have hfollow : ∀ c0 c1, CovStack a c0 → Along code p blk.1 c0 blk.2 c1 → ∃ out,
        (interpBlock code limit (p.blockInsts blk) f.ai a).1 = some out ∧ CovStack out c1 := by
      intro c0 c1 hcov hal
      obtain ⟨out, h1, h2, h3⟩ := along_interp (limit := limit) (st := f.ai) hal hcov.1
        (fun j d cj _ _ _ hc => by have := hcov.2; omega)
      exact ⟨out, h1, h2, by have := hcov.2; omega⟩
    cases hr : (interpBlock code limit (p.blockInsts blk) f.ai a).1 with
    | none =>
      rw [fixStep_none (f := { f with work := w }) ha hblk hr]
      refine ⟨⟨h.len, h.zero, h.jd, h.pred, fun b' blk' h1 h2 i h3 h4 => ?_, fun b' blk' a' h1 h2 => ?_⟩, hlen⟩
      · by_cases e : b' = b
        · subst e; dsimp only at h1; rw [ha] at h1; simp at h1
        · obtain ⟨e1, e2⟩ := hkeep b' blk' e h2 i h3 h4
          rw [e1, e2]
          exact h.bot b' blk' h1 h2 i h3 h4
      · by_cases e : b' = b
        · subst e
          dsimp only at h1
          rw [ha] at h1; cases h1
          rw [hblk] at h2; cases h2
          right
          refine ⟨hsnap, fun c0 c1 hcov hal _ s x _ _ => ?_, ?_⟩
          · obtain ⟨out, h1, _⟩ := hfollow c0 c1 hcov hal
            rw [hr] at h1; simp at h1
          · rintro ⟨c0, c1, hcov, hal⟩
            obtain ⟨out, h1, _⟩ := hfollow c0 c1 hcov hal
            rw [hr] at h1; simp at h1
        · rcases h.done b' blk' a' h1 h2 with hw | hd
          · rcases List.mem_cons.1 hw with hw | hw
            · exact absurd hw e
            · exact .inl hw
          · right
            refine ⟨hd.snap.other (by omega) (hdis b' blk' e h2), hd.out, ?_⟩
            intro hex d hd0 hj hs v l hv
            dsimp only at hv
            have hr' := p.blocks_ok.range blk' (List.mem_of_getElem? h2)
            rw [(hkeep b' blk' e h2 (blk'.2 - 1) (by omega) (by omega)).1] at hv
            exact hd.disc hex d hd0 hj hs v l hv
    | some out =>
      obtain ⟨db', hdb⟩ : ∃ db', discNext code p p.blocks (interpBlock code limit (p.blockInsts blk) f.ai a).2 (blk.2 - 1)
        ((f.disc[b]?).getD []) = db' := ⟨_, rfl⟩
      have hpr := propagated_fold out (p.succs p.blocks blk ++ db') f.states w
      obtain ⟨q, hq⟩ : ∃ q, (p.succs p.blocks blk ++ db').foldl (propagate out) (f.states, w) = q := ⟨_, rfl⟩
      rw [hq] at hpr
      have hstep := fixStep_known (f := { f with work := w }) ha hblk hr q db' hdb hq
      -- facts about the discovered edges
      have hsub : ∀ s ∈ (f.disc[b]?).getD [], s ∈ db' := by
        intro s hs
        rw [← hdb]
        unfold discNext
        split
        · split
          · split
            · exact mem_discover.2 (.inl hs)
            · exact hs
          · exact hs
        · exact hs
      have hjd : ∀ s ∈ db', ∃ blk d, p.blocks[s]? = some blk ∧ p.insts[blk.1]? = some d ∧ d.isJumpdest = true := by
        intro s hs
        rw [← hdb] at hs
        unfold discNext at hs
        split at hs
        · rename_i d hd
          split at hs
          · rename_i hc
            rw [Bool.and_eq_true, Bool.not_eq_true'] at hc
            split at hs
            · rename_i v hv
              rcases mem_discover.1 hs with hs | ⟨l, x, t, _, _, ht, hit⟩
              · exact h.jd b s hs
              · obtain ⟨dd, hdd, hl⟩ := hlast
                rw [hd] at hdd; cases hdd
                obtain ⟨bd, hbd, hbo⟩ := wf.dest x t ht
                obtain ⟨dt, hdt, he⟩ := hev.get hbd
                have hjt : dt.isJumpdest = true := by unfold InstData.isJumpdest; rw [he.op, hbo]; rfl
                obtain ⟨blk', q1, q2⟩ := dest_starts (hf.dyn _ d hd hl hc.1 hc.2) hdt hjt hit
                exact ⟨blk', dt, q1, q2 ▸ hdt, hjt⟩
            · exact h.jd b s hs
          · exact h.jd b s hs
        · exact h.jd b s hs
      have hbl : b < f.disc.length := by rw [hlen]; exact (List.getElem?_eq_some_iff.1 hblk).1
      have hatb : ((f.disc.set b db')[b]?).getD [] = db' := by
        rw [List.getElem?_set_self hbl]; rfl
      rw [hstep]
      refine ⟨⟨hpr.len.trans h.len, fun hne => ?_, fun b' s hs => ?_, fun s a' hs0 hs => ?_, fun b' blk' h1 h2 i h3 h4 => ?_,
        fun b' blk' a' h1 h2 => ?_⟩, by dsimp only; rw [List.length_set]; exact hlen⟩
      · obtain ⟨a0, h0⟩ := h.zero hne
        obtain ⟨a1, h1, _⟩ := hpr.keep 0 a0 h0
        exact ⟨a1, h1⟩
      · by_cases e : b' = b
        · subst e
          exact hjd s (disc_at hs)
        · dsimp only at hs
          rw [List.getElem?_set_ne (Ne.symm e)] at hs
          exact h.jd b' s hs
      · dsimp only at hs ⊢
        cases hx : f.states[s]? with
        | none =>
          exfalso
          rw [List.getElem?_eq_none_iff, ← hpr.len, ← List.getElem?_eq_none_iff] at hx
          rw [hx] at hs; simp at hs
        | some x =>
          cases x with
          | bottom =>
            obtain ⟨q1, _⟩ := hpr.new s a' hs hx
            obtain ⟨a1, r1, _⟩ := hpr.keep b a ha
            refine ⟨b, a1, blk, r1, hblk, ?_⟩
            rw [hatb]
            exact q1
          | known a0 =>
            obtain ⟨q', aq, blkq, r1, r2, r3⟩ := h.pred s a0 hs0 hx
            obtain ⟨a1, t1, _⟩ := hpr.keep q' aq r1
            refine ⟨q', a1, blkq, t1, r2, ?_⟩
            rcases List.mem_append.1 r3 with r3 | r3
            · exact List.mem_append_left _ r3
            · exact List.mem_append_right _ (disc_grows hsub r3)
      · dsimp only at h1 ⊢
        have hb0 := hpr.bot b' h1
        by_cases e : b' = b
        · subst e; rw [ha] at hb0; simp at hb0
        · obtain ⟨e1, e2⟩ := hkeep b' blk' e h2 i h3 h4
          rw [e1, e2]
          exact h.bot b' blk' hb0 h2 i h3 h4
      · dsimp only at h1 ⊢
        cases hx : f.states[b']? with
        | none =>
          exfalso
          rw [List.getElem?_eq_none_iff, ← hpr.len, ← List.getElem?_eq_none_iff] at hx
          rw [hx] at h1; simp at h1
        | some x =>
          cases x with
          | bottom => exact .inl (hpr.new b' a' h1 hx).2
          | known a0 =>
            obtain ⟨a1, r1, r2, r3⟩ := hpr.keep b' a0 hx
            rw [h1] at r1; cases r1
            rcases r2 with rfl | r2
            · by_cases e : b' = b
              · subst e
                rw [ha] at hx; cases hx
                rw [hblk] at h2; cases h2
                right
                refine ⟨hsnap, fun c0 c1 hcov hal hc s x hs hx => ?_, ?_⟩
                · obtain ⟨out', g1, g2⟩ := hfollow c0 c1 hcov hal
                  rw [hr] at g1; cases g1
                  dsimp only at hs hx
                  rw [hatb] at hs
                  exact hpr.cov s x hs hx c1 hc g2
                · intro _ d hd hj hs v l hv hl w' hw' t s ht hit
                  dsimp only at hv ⊢
                  rw [hatb, ← hdb]
                  unfold discNext
                  rw [hd]
                  dsimp only
                  rw [if_pos (by rw [hj, hs]; rfl), hv]
                  exact mem_discover.2 (.inr ⟨l, w', t, hl, hw', ht, hit⟩)
              · rcases h.done b' blk' a' hx h2 with hw | hd
                · rcases List.mem_cons.1 hw with hw | hw
                  · exact absurd hw e
                  · exact .inl (hpr.work b' hw)
                · right
                  refine ⟨hd.snap.other (by omega) (hdis b' blk' e h2), fun c0 c1 hcov hal hc s x hs hx' => ?_, ?_⟩
                  · dsimp only at hs hx'
                    rw [List.getElem?_set_ne (Ne.symm e)] at hs
                    cases hy : f.states[s]? with
                    | none =>
                      exfalso
                      rw [List.getElem?_eq_none_iff, ← hpr.len, ← List.getElem?_eq_none_iff] at hy
                      rw [hy] at hx'; simp at hx'
                    | some y =>
                      obtain ⟨ay, rfl, hay⟩ := hd.out c0 c1 hcov hal hc s y hs hy
                      obtain ⟨a2, t1, _, t3⟩ := hpr.keep s ay hy
                      rw [t1] at hx'; cases hx'
                      exact ⟨a2, rfl, t3 c1 hc hay⟩
                  · intro hex d hd0 hj hs v l hv
                    dsimp only at hv ⊢
                    have hr' := p.blocks_ok.range blk' (List.mem_of_getElem? h2)
                    rw [(hkeep b' blk' e h2 (blk'.2 - 1) (by omega) (by omega)).1] at hv
                    rw [List.getElem?_set_ne (Ne.symm e)]
                    exact hd.disc hex d hd0 hj hs v l hv
            · exact .inl r2
  · have e : fixStep code limit p p.blocks b { f with work := w } = { f with work := w } := by
      unfold fixStep
      split
      · rename_i a blk ha hb; exact absurd ⟨a, blk, ha, hb⟩ hk
      · rfl
    rw [e]
    refine ⟨skip ?_, hlen⟩
    by_cases hk' : ∃ a, f.states[b]? = some (.known a)
    · obtain ⟨a, ha⟩ := hk'
      right
      cases hb : p.blocks[b]? with
      | none => rfl
      | some blk => exact absurd ⟨a, blk, ha, hb⟩ hk
    · exact .inl fun a ha => hk' ⟨a, ha⟩

theorem fixLoop_inv {code : Code} {limit : Nat} {base : List InstData} {p : Prog} {loc : AIState}
    (wf : FlowWf code base) (hev : Evolves base p.insts) (hf : Flagged p) : ∀ (fuel : Nat) (f : FixState),
    FixInv code limit p loc f.work f → f.disc.length = p.blocks.length →
    (fixLoop code limit p p.blocks fuel f).2 = true →
    FixInv code limit p loc [] (fixLoop code limit p p.blocks fuel f).1 := by
  intro fuel
  induction fuel with
  | zero =>
    intro f h hl hc
    unfold fixLoop at hc ⊢
    split at hc
    · rename_i hw
      rw [hw] at h
      rw [hw] at *
      exact h
    · simp at hc
  | succ n ih =>
    intro f h hl hc
    unfold fixLoop at hc ⊢
    split at hc
    · rename_i hw
      rw [hw] at h
      exact h
    · rename_i b w hw
      rw [hw] at h
      obtain ⟨h1, h2⟩ := fixStep_inv wf hev hf hl h
      exact ih _ h1 h2 hc

theorem runFixpoint_inv {code : Code} {limit : Nat} {base : List InstData} {p : Prog} {loc : AIState}
    (wf : FlowWf code base) (hev : Evolves base p.insts) (hf : Flagged p)
    (hc : (runFixpoint code limit p p.blocks loc).2 = true) :
    FixInv code limit p loc [] (runFixpoint code limit p p.blocks loc).1 := by
  unfold runFixpoint at hc ⊢
  refine fixLoop_inv wf hev hf _ _ ?_ (by simp) hc
  have hst : ∀ (b : Nat) a, ((List.replicate p.blocks.length BlockState.bottom).set 0 (.known []))[b]? =
      some (.known a) → b = 0 := by
    intro b a h
    by_cases e : b = 0
    · exact e
    · rw [List.getElem?_set_ne (Ne.symm e), List.getElem?_replicate] at h
      split at h <;> simp at h
  refine ⟨by simp, fun hne => ?_, fun b s hs => ?_, fun s a hs0 hs => absurd (hst s a hs) hs0, fun b blk _ _ i _ _ => ⟨rfl, rfl⟩,
    fun b blk a h _ => .inl (by rw [hst b a h]; simp)⟩
  · refine ⟨[], ?_⟩
    dsimp only
    rw [List.getElem?_set_self]
    rw [List.length_replicate]
    exact List.length_pos_iff.2 hne
  · exfalso
    dsimp only at hs
    rw [List.getElem?_replicate] at hs
    split at hs <;> simp at hs

end Verif
