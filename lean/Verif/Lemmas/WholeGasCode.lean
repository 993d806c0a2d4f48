import Verif.Lemmas.WholeGasInv
/-!
# The code of a block with gas
-/

namespace Verif
open Spec
variable {F : Type}

/-! ## Marked blocks -/

theorem gitems_marked {se : Nat → Nat × Nat} {f : Nat × InstData → GInst F} {l l' : List (Nat × InstData)}
    {S : List Word} (hm : Marked l l')
    (hf : ∀ p m, (f (p.1, mark m p.2)).idx = (f p).idx ∧ (f (p.1, mark m p.2)).k = (f p).k ∧
      (f (p.1, mark m p.2)).reads = (f p).reads) :
    ∀ m, (∀ j ≤ m, shown (runEvents (((l'.take j).map f).map GInst.t) S) =
        shown (runEvents (((l.take j).map f).map GInst.t) S)) →
      gitems se ((l'.take m).map f) S = gitems se ((l.take m).map f) S
  | 0, _ => by simp [gitems]
  | m + 1, h => by
    have ih := gitems_marked (se := se) hm hf m (fun j hj => h j (by omega))
    have h1 := congrArg costObs (h (m + 1) (Nat.le_refl _))
    have h2 := congrArg costObs (h m (by omega))
    rw [← spent_shown, ← spent_shown] at h1 h2
    cases hp : l'[m]? with
    | none =>
      have hl : l[m]? = none := by
        rw [List.getElem?_eq_none_iff] at hp ⊢
        rw [← hm.length]; exact hp
      rw [List.take_add_one, List.take_add_one, hp, hl]
      simpa using ih
    | some p' =>
      obtain ⟨p, b, hl, rfl, _⟩ := hm.at_ m p' hp
      rw [List.take_add_one, List.take_add_one, hp, hl] at h1 ⊢
      simp only [Option.toList_some, List.map_append, List.map_cons, List.map_nil] at h1 ⊢
      rw [gitems_append, gitems_append, ih]
      rw [runEvents_append, runEvents_append, spent_append, spent_append, h2] at h1
      simp only [runEvents, List.nil_append] at h1
      obtain ⟨q1, q2, q3⟩ := hf p b
      have h3 : spent (events (f (p.1, mark b p.2)).t (run (((l'.take m).map f).map GInst.t) S)) =
          spent (events (f p).t (run (((l.take m).map f).map GInst.t) S)) := by omega
      simp only [gitems, h3, q1, q2, q3]

theorem length_flatten_eq {α : Type} : ∀ {A B : List (List α)}, A.map List.length = B.map List.length →
    A.flatten.length = B.flatten.length := by
  intro A B h
  rw [List.length_flatten, List.length_flatten, h]

/-- The section of the original block that corresponds to a section of the marked one. -/
theorem split_counter {spec : SpecId} {l l' : List (Nat × InstData)} (hm : Marked l l')
    {A B : List (List (Nat × InstData))} {s : List (Nat × InstData)} (hs : splitSections spec l' = A ++ s :: B) :
    ∃ A0 s0 B0, splitSections spec l = A0 ++ s0 :: B0 ∧ A0.flatten.length = A.flatten.length ∧ s0.length = s.length ∧
      B0.length = B.length ∧ (∀ (j : Nat) p', s[j]? = some p' → ∃ p m, s0[j]? = some p ∧ p' = (p.1, mark m p.2)) := by
  have hlen := split_mark (spec := spec) hm.length (fun j p' h => by
    obtain ⟨p, b, h1, h2, _⟩ := hm.at_ j p' h; exact ⟨p, b, h1, h2⟩)
  rw [hs] at hlen
  have hll : (splitSections spec l).length = A.length + (B.length + 1) := by
    have := congrArg List.length hlen
    simp only [List.length_map, List.length_append, List.length_cons] at this
    omega
  obtain ⟨s0, hs0⟩ : ∃ s0, (splitSections spec l)[A.length]? = some s0 :=
    ⟨_, List.getElem?_eq_getElem (by omega)⟩
  have hsp := split_nth hs0
  have hA : ((splitSections spec l).take A.length).map List.length = A.map List.length := by
    rw [List.map_take, ← hlen, List.map_append, List.take_left' (by simp)]
  have hlen0 : s0.length = s.length := by
    have h1 := congrArg (fun x => x[A.length]?) hlen
    simp only [List.getElem?_map, hs0] at h1
    rw [List.getElem?_append_right (Nat.le_refl _), Nat.sub_self] at h1
    simpa using h1.symm
  refine ⟨_, s0, _, hsp, length_flatten_eq hA, hlen0, by rw [List.length_drop]; omega, ?_⟩
  intro j p' hj
  have hjl : j < s.length := (List.getElem?_eq_some_iff.1 hj).1
  have hf' := split_flatten spec l'
  have hf := split_flatten spec l
  rw [hs] at hf'
  rw [hsp] at hf
  simp only [List.flatten_append, List.flatten_cons] at hf hf'
  have h1 : l'[A.flatten.length + j]? = some p' := by
    rw [← hf', List.getElem?_append_right (by omega), Nat.add_sub_cancel_left, List.getElem?_append_left hjl]
    exact hj
  obtain ⟨p, b, h2, h3, _⟩ := hm.at_ _ _ h1
  refine ⟨p, b, ?_, h3⟩
  rw [← hf, List.getElem?_append_right (by rw [length_flatten_eq hA]; omega), length_flatten_eq hA, Nat.add_sub_cancel_left,
    List.getElem?_append_left (by omega)] at h2
  exact h2

theorem mark_flags {m : Bool} {d : InstData} : (mark m d).flags.disabled = d.flags.disabled ∧
    (mark m d).flags.unknown = d.flags.unknown ∧ (mark m d).opcode = d.opcode ∧
    ∀ spec, (mark m d).endsSection spec = d.endsSection spec := by
  cases m <;> exact ⟨rfl, rfl, rfl, fun _ => rfl⟩

section code
variable {C : Compiled} {env : Env F} {dyn : Nat → Nat → List Word → Nat} {expCost : Word → Nat}
  {clob : Nat → Int → Word} {mem : Int → Word} {b : Nat × Nat}
  {base : List InstData} {ok : Nat → List Word → Prop} {o : WOpts}

theorem ginst_t (l : List (Nat × InstData)) (k s : Nat) : (l.map (C.ginst env dyn clob k s)).map GInst.t =
    l.map (toT C.code C.ai (actOf C.code C.prog (C.gasEnv env dyn) k s) (clobAt clob k s)) := by
  rw [List.map_map]; rfl

theorem headOf_fst {se : Nat → Nat × Nat} {k s : Nat} (l : List (Nat × InstData)) :
    headOf se (l.map (C.ginst env dyn clob k s)) = ((l.map Prod.fst).map fun i => (se i).1 + (se i).2).sum := by
  unfold headOf
  rw [List.map_map, List.map_map]; rfl

/-- `sec_static` for marked blocks. -/
theorem secs_static (hfit : SumsFit C expCost) (hb : b ∈ C.prog.blocks)
    (hhead : SecHead C.prog.insts C.spec C.prog.hasDyn b.1) {l' : List (Nat × InstData)}
    (hm : Marked (C.prog.blockInsts b) l') {A B : List (List (Nat × InstData))}
    {s : List (Nat × InstData)} (hs : splitSections C.spec l' = A ++ s :: B) {e k0 : Nat}
    (hq : A.flatten.length < e) (hlive : ∀ x ∈ (C.prog.blockInsts b).take e, x.2.flags.deadCode = false) :
    headOf (C.se expCost) ((s.map (C.ginst env dyn clob k0 b.1)).take (e - A.flatten.length)) ≤ C.sectionGas expCost s ∧
    (A.flatten.length + s.length ≤ e →
      ((∃ y, s.getLast? = some y ∧ y.2.endsSection C.spec = true) ∨
        (B = [] ∧ specRest C.spec C.prog.hasDyn (C.prog.insts.drop b.2) b.2 = [])) →
      (∀ x ∈ s, (x.2.flags.disabled || x.2.flags.unknown) = false) →
      C.sectionGas expCost s = headOf (C.se expCost) (s.map (C.ginst env dyn clob k0 b.1))) := by
  obtain ⟨A0, s0, B0, h1, h2, h3, h4, h5⟩ := split_counter hm hs
  have hfst : s.map Prod.fst = s0.map Prod.fst := by
    apply List.ext_getElem?
    intro j
    rw [List.getElem?_map, List.getElem?_map]
    cases hj : s[j]? with
    | none =>
      rw [List.getElem?_eq_none_iff] at hj
      rw [List.getElem?_eq_none (by omega)]
    | some p' =>
      obtain ⟨p, m, q1, rfl⟩ := h5 j p' hj
      rw [q1]; rfl
  have hsg : C.sectionGas expCost s = C.sectionGas expCost s0 := by
    cases s with
    | nil =>
      have : s0 = [] := by cases s0 with | nil => rfl | cons _ _ => simp at h3
      rw [this]
    | cons p' s' =>
      obtain ⟨p, m, q1, rfl⟩ := h5 0 p' rfl
      cases s0 with
      | nil => simp at q1
      | cons p0 s0' =>
        simp only [List.getElem?_cons_zero, Option.some.injEq] at q1
        subst q1
        obtain ⟨i, d⟩ := p0
        unfold Compiled.sectionGas
        dsimp only
        rw [(mark_flags (m := m) (d := d)).1, (mark_flags (m := m) (d := d)).2.1]
  obtain ⟨r1, r2⟩ := sec_static (expCost := expCost) hfit hb hhead h1 (e := e) (by omega) hlive
  rw [hsg]
  constructor
  · rw [← List.map_take, headOf_fst, List.map_take, hfst, ← List.map_take, List.map_map]
    rw [h2] at r1
    exact r1
  · intro hle hend hoff
    rw [headOf_fst, hfst, List.map_map]
    refine r2 (by omega) ?_ ?_
    · rcases hend with ⟨y, y1, y2⟩ | ⟨y1, y2⟩
      · left
        rw [List.getLast?_eq_getElem?] at y1
        obtain ⟨p, m, q1, rfl⟩ := h5 _ _ y1
        refine ⟨p, ?_, ?_⟩
        · rw [List.getLast?_eq_getElem?, h3]; exact q1
        · rw [← (mark_flags (m := m) (d := p.2)).2.2.2 C.spec]; exact y2
      · right
        refine ⟨?_, y2⟩
        rw [y1] at h4
        exact List.eq_nil_of_length_eq_zero h4
    · intro x hx
      obtain ⟨j, hj⟩ := List.mem_iff_getElem?.1 hx
      have hjl : j < s0.length := (List.getElem?_eq_some_iff.1 hj).1
      obtain ⟨p, m, q1, q2⟩ := h5 j _ (List.getElem?_eq_getElem (show j < s.length by omega))
      rw [hj] at q1; cases q1
      have := hoff _ (List.getElem_mem (show j < s.length by omega))
      rw [q2, (mark_flags (m := m) (d := x.2)).1, (mark_flags (m := m) (d := x.2)).2.1] at this
      exact this

/-- `Part.shows` up to the end of the block. -/
theorem Part.ready {E : Type} {env : Env E} {n k0 : Nat} {c0 : List Word} {cx : SCx (Option E)} {k i : Nat}
    {c : List Word} {tr : List (Obs E)} (G : GoodC base ok o C) (hw : WorldX C.ai base env)
    (P : Part C env clob mem b n k0 c0 cx k i c tr)
    (hfit : (blockAcc (C.prog.blockInsts b)).inputs + (blockAcc (C.prog.blockInsts b)).maxGrowth ≤ 32767)
    {l' : List (Nat × InstData)}
    (he : (if o.dse then dseBlock o.inspect C.code C.ai (C.prog.blockInsts b) else some (C.prog.blockInsts b)) = some l') :
    Marked (C.prog.blockInsts b) l' ∧ (∀ p', l'.getLast? = some p' → p'.2.flags.noop = false) ∧
    (C.prog.blockInsts b).take (i - b.1) = C.prog.slice b.1 (i - b.1) ∧
    RunReadable ((l'.take (i - b.1)).map (toT C.code C.ai (actOf C.code C.prog env k0 b.1) (clobAt clob k0 b.1)))
      (List.replicate c0.length true) ∧
    RunOk ((l'.take (i - b.1)).map (toT C.code C.ai (actOf C.code C.prog env k0 b.1) (clobAt clob k0 b.1))) c0 ∧
    Low ((l'.take (i - b.1)).map (toT C.code C.ai (actOf C.code C.prog env k0 b.1) (clobAt clob k0 b.1))) c0 ∧
    Spec.run ((l'.take (i - b.1)).map (toT C.code C.ai (actOf C.code C.prog env k0 b.1) (clobAt clob k0 b.1))) c0 = c ∧
    ∀ j ≤ i - b.1, shown (runEvents ((l'.take j).map (toT C.code C.ai (actOf C.code C.prog env k0 b.1) (clobAt clob k0 b.1))) c0) =
      shown (runEvents (((C.prog.blockInsts b).take j).map
        (toT C.code C.ai (actOf C.code C.prog env k0 b.1) (clobAt clob k0 b.1))) c0) := by
  have hw' := G.world hw
  have hwf : ∀ x ∈ C.prog.blockInsts b, Wf C.code x := fun x hx => G.inst x.1 x.2 (mem_slice hx).1
  have hle := P.le
  have hlt := P.lt
  have hrg := C.prog.blocks_ok.range b P.blk
  have htake : (C.prog.blockInsts b).take (i - b.1) = C.prog.slice b.1 (i - b.1) := slice_take (by omega) (by omega)
  have hpure : ∀ x ∈ C.prog.blockInsts b, stackOnly x.2.opcode.toNat = true → ∀ args,
      (actOf C.code C.prog env k0 b.1 x.1 args).2 = none := fun x hx hso args => by
    rw [actOf_snd]
    exact hw'.quiet _ _ _ _ (mem_slice hx).1 (stackOnly_mute _ hso)
  have hok := P.ok
  have hlow := P.low
  have hstk := P.stack
  unfold Compiled.part at hok hlow hstk
  rw [← htake] at hok hlow hstk
  have hsnap : ∀ j ≤ i - b.1, ∀ p ∈ (C.prog.blockInsts b).take j, FullSnap C.ai p := fun j hj p hp =>
    P.snap p (by rw [← htake]; exact (List.take_subset_take_left _ hj) hp)
  obtain ⟨b1, b2, b3, b4, b5, b6, _⟩ := block_ok' (act := actOf C.code C.prog env k0 b.1) (clob := clobAt clob k0 b.1) o (i - b.1) hwf
    (hsnap _ (Nat.le_refl _)) hfit hpure hok he
  have b8 := low_marked (act := actOf C.code C.prog env k0 b.1) (clob := clobAt clob k0 b.1) o (i - b.1) hwf
    (hsnap _ (Nat.le_refl _)) hfit hpure hok hlow he
  refine ⟨b1, b2, htake, b3, b4, b8, by rw [b5]; exact hstk, ?_⟩
  intro j hj
  have hokj : RunOk (((C.prog.blockInsts b).take j).map (toT C.code C.ai (actOf C.code C.prog env k0 b.1) (clobAt clob k0 b.1))) c0 := by
    have hcut : (C.prog.blockInsts b).take (i - b.1) = (C.prog.blockInsts b).take j ++
        ((C.prog.blockInsts b).take (i - b.1)).drop j := by
      have := (List.take_append_drop j ((C.prog.blockInsts b).take (i - b.1))).symm
      rw [List.take_take, Nat.min_eq_left hj] at this
      exact this
    rw [hcut, List.map_append] at hok
    exact ((runOk_append _ _ _).1 hok).1
  obtain ⟨_, _, _, _, _, b6, _⟩ := block_ok' (act := actOf C.code C.prog env k0 b.1) (clob := clobAt clob k0 b.1) o j hwf
    (hsnap _ hj) hfit hpure hokj he
  have b9 := congrArg shown b6
  rw [shown_visible, shown_visible] at b9
  exact b9

theorem reads_ends (spec : SpecId) (d : InstData) (h : readsCounter spec d = true) :
    d.endsSection spec = true ∧ d.opcode ≠ op.EXP := by
  unfold readsCounter at h
  simp only [Bool.or_eq_true, Bool.and_eq_true, beq_iff_eq, decide_eq_true_eq, List.contains_iff_mem] at h
  refine ⟨?_, ?_⟩
  · unfold InstData.endsSection InstData.maySuspend InstData.requiresGasleft
    rcases h with (h | ⟨h, h'⟩) | h
    · rw [h]; simp
    · rw [h]; simp [h']
    · simp only [List.mem_cons, List.not_mem_nil, or_false] at h
      rcases h with h | h | h | h | h | h <;> rw [h] <;> simp
  · rcases h with (h | ⟨h, h'⟩) | h
    · rw [h]; decide
    · rw [h]; decide
    · simp only [List.mem_cons, List.not_mem_nil, or_false] at h
      rcases h with h | h | h | h | h | h <;> rw [h] <;> decide

theorem reads_iff (spec : SpecId) (d : InstData) : readsCounter spec d = decide (readsGas spec d.opcode) := by
  rw [Bool.eq_iff_iff, decide_eq_true_iff]
  unfold readsCounter readsGas
  simp only [Bool.or_eq_true, Bool.and_eq_true, beq_iff_eq, decide_eq_true_eq, List.contains_iff_mem,
    List.mem_cons, List.not_mem_nil, or_false]
  constructor
  · rintro ((h | h) | h)
    · left; left; exact h
    · right; exact h
    · left
      rcases h with h | h | h | h | h | h
      · exact .inr (.inl h)
      · exact .inr (.inr (.inl h))
      · exact .inr (.inr (.inr (.inl h)))
      · exact .inr (.inr (.inr (.inr (.inl h))))
      · exact .inr (.inr (.inr (.inr (.inr (.inl h)))))
      · exact .inr (.inr (.inr (.inr (.inr (.inr h)))))
  · rintro (h | h)
    · rcases h with h | h
      · exact .inl (.inl h)
      · exact .inr h
    · exact .inl (.inr h)

/-- The sections of the code of a block. -/
theorem gsecs_ok (G : GoodC base ok o C) (k0 : Nat) {l' : List (Nat × InstData)} (hm : Marked (C.prog.blockInsts b) l')
    (hfit : (blockAcc (C.prog.blockInsts b)).inputs + (blockAcc (C.prog.blockInsts b)).maxGrowth ≤ 32767)
    (hn : ∀ p', l'.getLast? = some p' → p'.2.flags.noop = false) :
    ((C.gsecs expCost env dyn clob k0 { start := b.1, stop := b.2, insts := l' }).map Prod.snd).flatten =
      l'.map (C.ginst env dyn clob k0 b.1) ∧
    ((C.gsecs expCost env dyn clob k0 { start := b.1, stop := b.2, insts := l' }).map fun s => s.2.map GInst.t) =
      C.secs (C.gasEnv env dyn) clob k0 { start := b.1, stop := b.2, insts := l' } ∧
    ∀ s ∈ C.gsecs expCost env dyn clob k0 { start := b.1, stop := b.2, insts := l' }, GSec (C.se expCost) s := by
  have hwf : ∀ x ∈ C.prog.blockInsts b, Wf C.code x := fun x hx => G.inst x.1 x.2 (mem_slice hx).1
  refine ⟨?_, ?_, ?_⟩
  · unfold Compiled.gsecs
    rw [List.map_map]
    show ((splitSections C.spec l').map (List.map (C.ginst env dyn clob k0 b.1))).flatten = _
    rw [← List.map_flatten, split_flatten]
  · unfold Compiled.gsecs Compiled.secs
    rw [List.map_map]
    refine List.map_congr_left fun s _ => ?_
    exact ginst_t s k0 b.1
  · intro s hs
    unfold Compiled.gsecs at hs
    obtain ⟨s', hs', rfl⟩ := List.mem_map.1 hs
    obtain ⟨h1, h2, h3, h4, h5⟩ := sections_shape (act := actOf C.code C.prog (C.gasEnv env dyn) k0 b.1) (clob := clobAt clob k0 b.1)
      C.spec hm (fun p hp => (hwf p hp).noop) hfit hn _ (List.mem_map_of_mem hs')
    dsimp only at h1 h2 h3 h4 h5 ⊢
    rw [← ginst_t] at h1 h2 h3 h4 h5
    obtain ⟨A, B, hsp⟩ := List.append_of_mem hs'
    obtain ⟨_, c2, _, _⟩ := split_cut hsp
    refine ⟨?_, h2, h3, h4, h5, ?_, ?_⟩
    · intro h; dsimp only at h; rw [h] at h1; exact h1 rfl
    · intro x hx
      dsimp only at hx
      rw [← List.map_dropLast] at hx
      obtain ⟨y, hy, rfl⟩ := List.mem_map.1 hx
      have := c2 y hy
      cases hr : (C.ginst env dyn clob k0 b.1 y).reads with
      | false => rfl
      | true => rw [(reads_ends _ _ hr).1] at this; cases this
    · intro x hx hr
      dsimp only at hx
      obtain ⟨y, hy, rfl⟩ := List.mem_map.1 hx
      have hy' : y ∈ l' := by
        rw [← split_flatten C.spec l']
        exact List.mem_flatten.2 ⟨s', hs', hy⟩
      obtain ⟨j, hj⟩ := List.mem_iff_getElem?.1 hy'
      obtain ⟨p, m, p1, p2, _⟩ := hm.at_ j y hj
      have hp := (mem_slice (List.mem_of_getElem? p1)).1
      have hne := (reads_ends _ _ hr).2
      rw [p2, mark_flags.2.2.1] at hne
      have hex := extra_none (expCost := expCost) hp hne
      show (C.se expCost y.1).2 = 0
      rw [p2]
      unfold Compiled.se
      rw [hp]
      dsimp only
      split
      · rfl
      · rw [hex]; rfl

/-- One more block. -/
theorem runG_block {n k0 : Nat} {cx : SCx (Option (Paid F))} {g0 ge : Nat} {rde : List (Nat × Nat)}
    {l' : List (Nat × InstData)} (hr : C.runG expCost env dyn clob mem g0 n = .running k0 b.1 cx ge rde)
    (hfind : C.blocks.find? (fun x => x.start == b.1) = some { start := b.1, stop := b.2, insts := l' }) :
    C.runG expCost env dyn clob mem g0 (n + 1) =
      match gasSections (C.gsecs expCost env dyn clob k0 { start := b.1, stop := b.2, insts := l' }) cx ge rde with
      | .done cx g rd => (C.leave k0 { start := b.1, stop := b.2, insts := l' } cx).withGas g rd
      | .fail f _ => .stackError f
      | .bad i _ => .badImmediate i
      | .outOfGas => .outOfGas
      | .panic => .panic := by
  show (match C.runG expCost env dyn clob mem g0 n with
    | .running k i cx g rd => C.gasBlock expCost env dyn clob k i cx g rd | o => o) = _
  rw [hr]
  show C.gasBlock expCost env dyn clob k0 b.1 cx ge rde = _
  unfold Compiled.gasBlock
  rw [hfind]
  dsimp only
  cases gasSections (C.gsecs expCost env dyn clob k0 { start := b.1, stop := b.2, insts := l' }) cx ge rde <;> rfl

theorem gasSteps_any (xs : List (GInst F)) (hne : xs ≠ []) {cx : SCx (Option (Paid F))} {S : List Word} {G : List Bool}
    {a : StackAcc} {I M : Int} (h : Inv cx S G) (hok : RunOk (xs.map GInst.t) S) (hsh : Shape (xs.map GInst.t))
    (hf : Fits (xs.map GInst.t) a I M) (hr : RunReadable (xs.map GInst.t) G) (hb : cx.vs.base = -I)
    (hc : cx.vs.cap = I + M) (ht : cx.vs.top = a.diff) (hbad : ∀ x ∈ xs, x.bad = false) :
    ∃ cx', SCx.steps (xs.map GInst.t) cx = some cx' ∧
      HoldsM cx' (run (xs.map GInst.t) S) (maskRun (xs.map GInst.t) G) ∧
      ∀ g rd, gasSteps xs cx g rd = .outOfGas ∨ ∃ g' rd', gasSteps xs cx g rd = .done cx' g' rd' := by
  obtain ⟨c1, e1, m1, _, _⟩ := gasSteps_ok (se := fun _ => (0, 0)) xs hne h hok hsh hf hr hb hc ht hbad 0 []
  refine ⟨c1, e1, m1, fun g rd => ?_⟩
  obtain ⟨c2, e2, _, _, g2⟩ := gasSteps_ok (se := fun _ => (0, 0)) xs hne h hok hsh hf hr hb hc ht hbad g rd
  rw [e1] at e2; cases e2
  rw [g2]
  cases paySteps (gitems (fun _ => (0, 0)) xs S) g rd with
  | none => exact .inl rfl
  | some q => exact .inr ⟨q.1, q.2, rfl⟩

/-- The sections of a block that is executed to its end, whatever they charge. -/
theorem gasSections_any {se : Nat → Nat × Nat} (secs : List (Nat × List (GInst F))) (hsec : ∀ s ∈ secs, GSec se s)
    {cx : SCx (Option (Paid F))} {S : List Word} {G : List Bool}
    (h : HoldsM cx S G) (hm : G.length = S.length) (hok : RunOk ((secs.map Prod.snd).flatten.map GInst.t) S)
    (hl : Low ((secs.map Prod.snd).flatten.map GInst.t) S) (hr : RunReadable ((secs.map Prod.snd).flatten.map GInst.t) G)
    (hbad : ∀ x ∈ (secs.map Prod.snd).flatten, x.bad = false) :
    ∃ cx', checkedSections (secs.map fun s => s.2.map GInst.t) cx = .done cx' ∧
      ∀ g rd, gasSections secs cx g rd = .outOfGas ∨ ∃ g' rd', gasSections secs cx g rd = .done cx' g' rd' := by
  induction secs generalizing cx S G with
  | nil => exact ⟨cx, rfl, fun g rd => .inr ⟨g, rd, rfl⟩⟩
  | cons s secs ih =>
    rw [List.map_cons, List.flatten_cons] at hok hl hr hbad
    rw [List.map_append] at hok hl hr
    obtain ⟨o1, o2⟩ := (runOk_append _ _ _).1 hok
    obtain ⟨r1, r2⟩ := (runReadable_append _ _ _).1 hr
    have hs := hsec s (by simp)
    obtain ⟨I, M, hf, hi, hb, hc, ht, _, htr⟩ := head_ok (s.2.map GInst.t) h hm o1 hs.inputs hs.growth
    have hck := headCheck_ok o1 hl.left h.1
    obtain ⟨c1, e1, m1, g1⟩ := gasSteps_any s.2 hs.ne hi o1 hs.shape hf r1 hb hc ht (fun x hx => hbad x (by simp [hx]))
    have hm' := maskRun_length (s.2.map GInst.t) S G o1 hm
    obtain ⟨c2, e2, g2⟩ := ih (fun s hs => hsec s (by simp [hs])) m1 hm' o2 hl.right r2
      (fun x hx => hbad x (by rw [List.mem_append]; exact .inr hx))
    refine ⟨c2, ?_, fun g rd => ?_⟩
    · rw [List.map_cons]
      have e1' : SCx.runSection (s.2.map GInst.t) cx = some c1 := e1
      simp only [checkedSections, hck, e1', e2]
    · obtain ⟨st, xs⟩ := s
      dsimp only at *
      rw [gasSections_cons]
      unfold chargeGas
      by_cases hg : g < st
      · rw [if_pos hg]; exact .inl rfl
      · rw [if_neg hg]
        dsimp only
        rw [hck]
        dsimp only
        rcases g1 (g - st) rd with q | ⟨g', rd', q⟩
        · rw [q]; exact .inl rfl
        · rw [q]; exact g2 g' rd'

end code

end Verif
