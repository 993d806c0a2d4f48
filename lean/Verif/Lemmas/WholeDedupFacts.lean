import Verif.Props.DedupPass
import Verif.Lemmas.FlowLocal
/-!
# What rounds of deduplication leave behind
-/

namespace Verif
open Spec

theorem Merged.evolves {s : DState} {q : Prog} {m : Redirects} (H : Steady s) (R : RoundOf s q m) {i : Nat}
    {d d' : InstData} (h : Merged (roundMerges s) i d d') : EvolvesInst d d' := by
  refine ⟨h.op, h.io, h.gas, by rw [h.flags], by rw [h.flags], fun hd => by rw [h.dead, hd]; rfl, fun hj => ?_,
    fun _ => by rw [h.flags], by rw [h.flags]⟩
  rcases R.data H h with e | ⟨e, _⟩
  · exact e
  · rw [Single.iff] at e
    unfold InstData.isStaticJump at e
    rw [hj] at e; simp at e

theorem RoundOf.evolves {s : DState} {q : Prog} {m : Redirects} (H : Steady s) (R : RoundOf s q m) :
    Evolves s.prog.insts q.insts := by
  refine ⟨R.len, fun i d d' hd hd' => ?_⟩
  obtain ⟨e, h1, h2⟩ := R.inst i d hd
  rw [hd'] at h1; cases h1
  exact h2.evolves H R

/-- Operands and results are the block-local ones or unchanged. -/
theorem mergeGroups_either {loc : AIState} {bs : List (Nat × Nat)} {succ : Nat × Nat → List Nat}
    (gs : List (List Nat)) : ∀ {s s' : DState}, DState.mergeGroups loc bs succ gs s = some s' →
    ∀ i, AgreesAt loc s'.ai i ∨ AgreesAt s.ai s'.ai i := by
  induction gs with
  | nil =>
    intro s s' h i
    rw [DState.mergeGroups] at h; cases h
    exact .inr ⟨rfl, rfl⟩
  | cons g gs ih =>
    intro s s' h i
    rw [DState.mergeGroups] at h
    obtain ⟨s1, h1, h2⟩ := Option.bind_eq_some_iff.1 h
    have hg : AgreesAt loc s1.ai i ∨ AgreesAt s.ai s1.ai i := by
      match g, h1 with
      | [], h1 => rw [DState.mergeGroup] at h1; cases h1; exact .inr ⟨rfl, rfl⟩; nofun
      | [_], h1 =>
        rw [DState.mergeGroup] at h1
        · cases h1; exact .inr ⟨rfl, rfl⟩
        · nofun
      | c :: d :: rest, h1 =>
        rw [DState.mergeGroup] at h1
        cases hc : bs[c]? with
        | none => rw [hc] at h1; simp at h1
        | some canon =>
          rw [hc] at h1
          dsimp only at h1
          have hai := mergeAll_ai _ h1
          rw [hai]
          cases hq : decide (canon.1 ≤ i) && decide (i < canon.2) with
          | true => exact .inl (restore_agrees (.inl hq))
          | false =>
            right
            unfold AgreesAt restore
            dsimp only
            simp [hq]
    rcases ih h2 i with h3 | h3
    · exact .inl h3
    · rcases hg with hg | hg
      · exact .inl ⟨h3.1.trans hg.1, h3.2.trans hg.2⟩
      · exact .inr ⟨h3.1.trans hg.1, h3.2.trans hg.2⟩

/-- What holds after any number of rounds from `s`. -/
structure After (loc : AIState) (s c : DState) : Prop where
  steady : Steady c
  ev : Evolves s.prog.insts c.prog.insts
  either : ∀ i, AgreesAt loc c.ai i ∨ AgreesAt s.ai c.ai i
  consts : ∀ k v, c.redirects.get k = some v → ∃ b ∈ c.prog.blocks, b.1 = v ∧
    ∀ i, b.1 ≤ i → i < b.2 → AgreesAt loc c.ai i
  multi : ∀ (j : Nat) d, c.prog.insts[j]? = some d → d.flags.deadCode = false → d.flags.multiJump = true →
    ∀ t ∈ multiAt c.prog j, ∃ i0 d0, s.prog.insts[i0]? = some d0 ∧ d0.flags.deadCode = false ∧
      d0.flags.multiJump = true ∧ t ∈ multiAt s.prog i0

theorem rounds_after {loc : AIState} {s c : DState} (hs : Steady s) (h0 : s.redirects = []) (hr : Rounds loc s c) :
    After loc s c := by
  induction hr with
  | start =>
    exact ⟨hs, .refl _, fun i => .inr ⟨rfl, rfl⟩, fun k v hk => by rw [h0] at hk; simp [AMap.get] at hk,
      fun j d hd hl hm t ht => ⟨j, d, hd, hl, hm, ht⟩⟩
  | @round a b c n _ h1 h2 ih =>
    obtain ⟨Ha, ea, ya, ia, ma⟩ := ih
    obtain ⟨m, R, hc1, hc2, hai⟩ := round_of Ha h1 h2
    have hag := mergeGroups_agrees _ (once_groups h1)
    refine ⟨R.steady (ai := c.ai) Ha hc1 hc2, ea.trans (R.evolves Ha), fun i => ?_, fun k v hk => ?_,
      fun j d' hd' hl hm t ht => ?_⟩
    · rw [hai]
      rcases mergeGroups_either _ (once_groups h1) i with h3 | h3
      · exact .inl h3
      · rcases ya i with h4 | h4
        · exact .inl ⟨h3.1.trans h4.1, h3.2.trans h4.2⟩
        · exact .inr ⟨h3.1.trans h4.1, h3.2.trans h4.2⟩
    · have hend : Ends m.get k v := (hc1.ends k v).1 (.hop hk (.stop (hc2 k v hk)))
      rcases R.ends_cases Ha hend with he | ⟨x, hx, _, he⟩
      · cases hg : a.redirects.get k with
        | none =>
          exfalso
          have hkv : v = k := by rw [he]; unfold effective; rw [hg]; rfl
          have := hc1.earlier k v hk
          omega
        | some w =>
          have hvw : v = w := by rw [he]; unfold effective; rw [hg]; rfl
          subst hvw
          obtain ⟨x, hx, hxv, hxa⟩ := ia k v hg
          refine ⟨x, (R.blocks Ha).2 ⟨hx, fun y hy hxy => ?_⟩, hxv, fun i h3 h4 => by
            rw [hai]; exact hag.1 i (hxa i h3 h4)⟩
          have h5 := hend.unredirected
          rw [← hxv, hxy, R.edge y hy] at h5
          simp at h5
      · obtain ⟨g, hg, cc, bb, e1, e2, e3, e4, e5⟩ := mem_roundMerges hx
        refine ⟨x.canon, (R.blocks Ha).2 ⟨(mergeOk hx).canonIn, fun y hy => canon_ne_dup hx hy⟩, he.symm,
          fun i h3 h4 => ?_⟩
        rw [hai]
        exact hag.2 g.2 (List.mem_map.2 ⟨g, hg, rfl⟩) cc x.canon e1 (fun hn => by rw [hn] at e2; simp at e2) e4 i h3 h4
    · obtain ⟨d, hd, hmd⟩ := R.back hd'
      obtain ⟨l1, l2⟩ := hmd.live.1 hl
      have hne : ∀ x ∈ roundMerges a, j ≠ x.dup.2 - 1 := by
        intro x hx he
        rw [he, Ha.dup_term hx] at l2; simp at l2
      have hmu : d.flags.multiJump = true := by rw [hmd.flags] at hm; exact hm
      rcases ((R.multi j hne).2 t).1 ht with h3 | ⟨x, hx, _, h4, h5⟩
      · exact ma j d hd l1 hmu t h3
      · have hr := (a.prog.blocks_ok.range _ (mergeOk hx).dupIn).2.1
        obtain ⟨e, he, hel⟩ := Ha.anch.block_live (mergeOk hx).dupIn (j := x.dup.2 - 1) (by omega) (by omega)
        unfold flaggedMulti at h4
        rw [he, Option.any_some] at h4
        exact ma _ e he hel h4 t h5

/-! ## Slices -/

theorem slice_length {p : Prog} {s n : Nat} (h : ∀ j, s ≤ j → j < s + n → j < p.insts.length) :
    (p.slice s n).length = n ∧ ∀ k, k < n → ∃ d, p.insts[s + k]? = some d ∧ (p.slice s n)[k]? = some (s + k, d) := by
  induction n with
  | zero => exact ⟨rfl, fun k hk => by omega⟩
  | succ n ih =>
    have hlt := h (s + n) (by omega) (by omega)
    rw [slice_succ (List.getElem?_eq_getElem hlt)]
    obtain ⟨i1, i2⟩ := ih fun j h1 h2 => h j h1 (by omega)
    refine ⟨by rw [List.length_append, i1]; rfl, fun k hk => ?_⟩
    rcases Nat.lt_or_ge k n with hkn | hkn
    · obtain ⟨d, e1, e2⟩ := i2 k hkn
      exact ⟨d, e1, by rw [List.getElem?_append_left (by omega)]; exact e2⟩
    · have : k = n := by omega
      subst this
      exact ⟨_, List.getElem?_eq_getElem hlt, by rw [List.getElem?_append_right (by omega), i1]; simp⟩

theorem blockInsts_at {p : Prog} {b : Nat × Nat} (hb : b ∈ p.blocks) : (p.blockInsts b).length = b.2 - b.1 ∧
    ∀ k, k < b.2 - b.1 → ∃ d, p.insts[b.1 + k]? = some d ∧ (p.blockInsts b)[k]? = some (b.1 + k, d) := by
  have hr := p.blocks_ok.range b hb
  exact slice_length fun j h1 h2 => by omega

theorem Matched.at {α : Type} {R : α → α → Prop} {a b : List α} (h : Matched R a b) : ∀ {k : Nat} {x y : α},
    a[k]? = some x → b[k]? = some y → R x y := by
  induction h with
  | nil => intro k x y h; simp at h
  | cons h1 _ ih =>
    intro k x y hx hy
    cases k with
    | zero => simp only [List.getElem?_cons_zero, Option.some.injEq] at hx hy; subst hx hy; exact h1
    | succ k => rw [List.getElem?_cons_succ] at hx hy; exact ih hx hy

theorem matched_of_get {α : Type} {R : α → α → Prop} : ∀ {a b : List α}, a.length = b.length →
    (∀ (k : Nat) x y, a[k]? = some x → b[k]? = some y → R x y) → Matched R a b
  | [], [], _, _ => .nil
  | [], _ :: _, h, _ => by simp at h
  | _ :: _, [], h, _ => by simp at h
  | x :: a, y :: b, h, hr => .cons (hr 0 x y rfl rfl)
      (matched_of_get (by simpa using h) fun k x y hx hy => hr (k + 1) x y hx hy)

end Verif
