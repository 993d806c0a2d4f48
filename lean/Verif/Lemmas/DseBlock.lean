import Verif.Lemmas.DseWalk
/-!
# Dead-store elimination on one block
-/

namespace Verif
open Spec
variable {F : Type}

theorem leaves_ends {code : Code} {st : AIState} {spec : SpecId} {i : Nat} {d : InstData}
    (h : d.endsSection spec = false) : (lowerOf code st i d).leaves = false := by
  unfold InstData.endsSection InstData.isBranching at h
  simp only [Bool.or_eq_false_iff] at h
  obtain ⟨⟨h1, h2, h3⟩, h4⟩ := h
  unfold lowerOf
  simp only [h1, h2, Bool.false_eq_true, if_false]
  split
  · rfl
  split
  · rfl
  split
  · rfl
  split
  · rfl
  split
  · split <;> rfl
  split
  · split <;> rfl
  split
  · split <;> rfl
  · exact (lowerPlain_shape _ _ _).2.2.1

theorem blockAcc_io {l l' : List (Nat × InstData)} (h : l'.map (·.2.stackIo) = l.map (·.2.stackIo))
    (a : StackAcc) :
    l'.foldl (fun a p => a.process p.2.stackIo.1 p.2.stackIo.2) a =
      l.foldl (fun a p => a.process p.2.stackIo.1 p.2.stackIo.2) a := by
  have e : ∀ l : List (Nat × InstData), l.foldl (fun a p => a.process p.2.stackIo.1 p.2.stackIo.2) a =
      (l.map (·.2.stackIo)).foldl (fun a q => a.process q.1 q.2) a := by
    intro l; rw [List.foldl_map]
  rw [e, e, h]

/-- Nothing about an instruction but its mark changes. -/
structure Marked (l l' : List (Nat × InstData)) : Prop where
  length : l'.length = l.length
  at_ : ∀ (j : Nat) (p' : Nat × InstData), l'[j]? = some p' → ∃ p b, l[j]? = some p ∧
    p' = (p.1, mark b p.2) ∧ (b = true → canSkipWhenDead p.2.opcode = true ∧ p.2.isBranching = false)

theorem Marked.io {l l' : List (Nat × InstData)} (h : Marked l l') :
    l'.map (·.2.stackIo) = l.map (·.2.stackIo) := by
  apply List.ext_getElem?
  intro j
  rw [List.getElem?_map, List.getElem?_map]
  cases hp : l'[j]? with
  | none =>
    have : l'.length ≤ j := List.getElem?_eq_none_iff.1 hp
    rw [List.getElem?_eq_none (by rw [← h.length]; exact this)]
  | some p' =>
    obtain ⟨p, b, h1, h2, _⟩ := h.at_ j p' hp
    rw [h1, h2]
    cases b <;> rfl

theorem Marked.ends {l l' : List (Nat × InstData)} (h : Marked l l') (hn : ∀ p ∈ l, p.2.flags.noop = false)
    (spec : SpecId) : ∀ p' ∈ l', p'.2.endsSection spec = true → p'.2.flags.noop = false := by
  intro p' hp he
  obtain ⟨j, hj⟩ := List.getElem?_of_mem hp
  obtain ⟨p, b, h1, h2, h3⟩ := h.at_ j p' hj
  have hn' := hn p (List.mem_of_getElem? h1)
  cases b with
  | false => rw [h2]; exact hn'
  | true =>
    exfalso
    obtain ⟨k1, k2⟩ := h3 rfl
    obtain ⟨k3, k4, k5⟩ := skip_section _ k1
    have : p'.2.endsSection spec = p.2.endsSection spec := by rw [h2]; rfl
    rw [this] at he
    unfold InstData.endsSection InstData.maySuspend InstData.requiresGasleft at he
    rw [k3, k2, k4, k5] at he
    simp at he

/-- The sections of a block within the bounds. -/
theorem sections_shape {code : Code} {st : AIState} {act : Nat → List Word → List Word × Option F}
    {clob : Nat → Int → Word} (spec : SpecId) {l l' : List (Nat × InstData)} (hm : Marked l l')
    (hn : ∀ p ∈ l, p.2.flags.noop = false) (hw : (blockAcc l).inputs + (blockAcc l).maxGrowth ≤ 32767)
    (hlast : ∀ p', l'.getLast? = some p' → p'.2.flags.noop = false) :
    ∀ ts ∈ (splitSections spec l').map (List.map (toT code st act clob)), ts ≠ [] ∧ Shape ts ∧
      (ts.foldl (fun a t => a.process t.inp t.out) ({} : StackAcc)).inputs ≤ 65535 ∧
      (ts.foldl (fun a t => a.process t.inp t.out) ({} : StackAcc)).maxGrowth ≤ 32767 ∧
      ∀ t ∈ ts.dropLast, t.lower.leaves = false := by
  intro us hus
  obtain ⟨ts, hts, rfl⟩ := List.mem_map.1 hus
  obtain ⟨pre, post, hsp⟩ := List.append_of_mem hts
  obtain ⟨h1, h2, h3⟩ := split_at spec l' pre ts post hsp
  have hfl := split_flatten spec l'
  rw [hsp] at hfl
  simp only [List.flatten_append, List.flatten_cons] at hfl
  have hlv : ∀ t ∈ (ts.map (toT code st act clob)).dropLast, t.lower.leaves = false := by
    intro t ht
    rw [← List.map_dropLast] at ht
    obtain ⟨p, hp, rfl⟩ := List.mem_map.1 ht
    exact leaves_ends (h2 p hp)
  refine ⟨by simpa using h1, shape_of _ hlv (fun t ht => ?_), ?_⟩
  · rw [List.getLast?_map] at ht
    obtain ⟨p, hp, rfl⟩ := Option.map_eq_some_iff.1 ht
    show p.2.flags.noop = false
    rcases h3 p hp with h | h
    · exact hm.ends hn spec p (by rw [← hfl]; simp [List.mem_of_getLast? hp]) h
    · subst h
      apply hlast p
      rw [← hfl, List.getLast?_append, List.getLast?_append]
      simp [hp]
  · have e0 : (({} : StackAcc).diff) = 0 := rfl
    have e1 : (({} : StackAcc).inputs) = 0 := rfl
    have e2 : (({} : StackAcc).maxGrowth) = 0 := rfl
    have hmono := window_mono l {}
    have hbw : Window l' {} (blockAcc l).inputs (blockAcc l).maxGrowth := by
      unfold Window blockAcc
      rw [blockAcc_io hm.io]
      exact ⟨Int.le_refl _, Int.le_refl _⟩
    change _ ≤ (blockAcc l).inputs ∧ _ ≤ (blockAcc l).maxGrowth at hmono
    rw [← hfl] at hbw
    obtain ⟨_, w2, w3, w4⟩ := hbw.append (by omega) (by omega)
    obtain ⟨w5, _, _, _⟩ := w2.append w3 w4
    have := w5.shift (b := {}) (by omega) (by omega)
    rw [acc_fold]
    obtain ⟨s1, s2⟩ := this
    exact ⟨by omega, by omega, hlv⟩

/-- What the pass does to a block within the bounds. -/
theorem block_ok {code : Code} {st : AIState} {act : Nat → List Word → List Word × Option F}
    {clob : Nat → Int → Word} (inspect : Bool) (n : Nat) {l l' : List (Nat × InstData)}
    {S : List Word} (wf : ∀ p ∈ l, Wf code p) (snap : ∀ p ∈ l.take n, FullSnap st p)
    (hw : (blockAcc l).inputs + (blockAcc l).maxGrowth ≤ 32767)
    (hpure : ∀ p ∈ l, stackOnly p.2.opcode.toNat = true → ∀ args, (act p.1 args).2 = none)
    (hok : RunOk ((l.take n).map (toT code st act clob)) S)
    (he : dseBlock inspect code st l = some l') :
    Marked l l' ∧ (∀ p', l'.getLast? = some p' → p'.2.flags.noop = false) ∧
      RunReadable ((l'.take n).map (toT code st act clob)) (List.replicate S.length true) ∧
      RunOk ((l'.take n).map (toT code st act clob)) S ∧
      run ((l'.take n).map (toT code st act clob)) S = run ((l.take n).map (toT code st act clob)) S ∧
      visible (runEvents ((l'.take n).map (toT code st act clob)) S) =
        visible (runEvents ((l.take n).map (toT code st act clob)) S) ∧
      (l.length ≤ n → termDiverges inspect l = false →
        ∀ d, d < (maskRun ((l'.take n).map (toT code st act clob)) (List.replicate S.length true)).length →
          (maskRun ((l'.take n).map (toT code st act clob)) (List.replicate S.length true))[d]? = some true) := by
  have hm : (List.replicate S.length true).length = S.length := by simp
  have e0 : (({} : StackAcc).diff) = 0 := rfl
  have e1 : (({} : StackAcc).inputs) = 0 := rfl
  have e2 : (({} : StackAcc).maxGrowth) = 0 := rfl
  have hmono : ({} : StackAcc).inputs ≤ (blockAcc l).inputs ∧ ({} : StackAcc).maxGrowth ≤ (blockAcc l).maxGrowth :=
    window_mono l {}
  have hwin : Window l {} (blockAcc l).inputs (blockAcc l).maxGrowth := ⟨Int.le_refl _, Int.le_refl _⟩
  have hdiff : -(blockAcc l).inputs ≤ (blockAcc l).diff ∧ (blockAcc l).diff ≤ (blockAcc l).maxGrowth := by
    have := Window.append (as := l) (bs := []) (I := (blockAcc l).inputs) (M := (blockAcc l).maxGrowth)
      (by rw [List.append_nil]; exact hwin) (by omega) (by omega)
    exact this.2.2
  obtain ⟨hh, hha⟩ := heights_of hwin (by omega) (by omega) (by omega)
  rw [e0, Int.add_zero] at hh hha
  change ((heightAfter l (blockAcc l).inputs.toNat : Nat) : Int) = (blockAcc l).inputs + (blockAcc l).diff at hha
  have hsec : (blockAcc l).section.inputs = (blockAcc l).inputs.toNat ∧
      (blockAcc l).section.maxGrowth = (blockAcc l).maxGrowth := by
    unfold StackAcc.section
    simp only
    rw [if_pos (by omega), if_pos (by omega)]; simp
  unfold dseBlock at he
  simp only [hsec.1, hsec.2] at he
  by_cases hemp : ((List.replicate (max ((((blockAcc l).inputs.toNat : Nat) : Int) + (blockAcc l).diff) 0).toNat
      (!termDiverges inspect l)).take (max ((((blockAcc l).inputs.toNat : Nat) : Int) + (blockAcc l).maxGrowth) 0).toNat ++
      List.replicate ((max ((((blockAcc l).inputs.toNat : Nat) : Int) + (blockAcc l).maxGrowth) 0).toNat -
        (max ((((blockAcc l).inputs.toNat : Nat) : Int) + (blockAcc l).diff) 0).toNat) false).isEmpty = true
  · rw [if_pos hemp] at he
    have := Option.some.inj he
    subst this
    have hnn : ∀ t ∈ (l.take n).map (toT code st act clob), t.noop = false := by
      intro t ht
      obtain ⟨p, hp, rfl⟩ := List.mem_map.1 ht
      exact (wf p (List.mem_of_mem_take hp)).noop
    obtain ⟨hr, ha⟩ := masks_all ((l.take n).map (toT code st act clob)) S _ hok hnn hm (allTrue _)
    exact ⟨⟨rfl, fun j p' hp => ⟨p', false, hp, rfl, by simp⟩⟩,
      fun p' hp => (wf p' (List.mem_of_getLast? hp)).noop, hr, hok, rfl, rfl, fun _ _ => ha⟩
  · rw [if_neg hemp] at he
    generalize hL : (List.replicate (max ((((blockAcc l).inputs.toNat : Nat) : Int) + (blockAcc l).diff) 0).toNat
      (!termDiverges inspect l)).take (max ((((blockAcc l).inputs.toNat : Nat) : Int) + (blockAcc l).maxGrowth) 0).toNat ++
      List.replicate ((max ((((blockAcc l).inputs.toNat : Nat) : Int) + (blockAcc l).maxGrowth) 0).toNat -
        (max ((((blockAcc l).inputs.toNat : Nat) : Int) + (blockAcc l).diff) 0).toNat) false = L at he
    obtain ⟨r, hr, he⟩ := Option.map_eq_some_iff.1 he
    obtain ⟨r1, L0⟩ := r
    simp only at he; subst he
    have hex : (max ((((blockAcc l).inputs.toNat : Nat) : Int) + (blockAcc l).diff) 0).toNat =
        heightAfter l (blockAcc l).inputs.toNat := by omega
    have hlive : termDiverges inspect l = false →
        ∀ j, j < heightAfter l (blockAcc l).inputs.toNat → L[j]? = some true := by
      intro ht j hj
      rw [← hL, hex, ht, List.take_replicate, List.getElem?_append_left (by simp; omega),
        List.getElem?_replicate, if_pos (by omega)]
      rfl
    obtain ⟨m1, m2⟩ := walk_marks l (fun p hp => (wf p hp).noop) hr
    have hmk : Marked l r1 := ⟨m1, m2⟩
    have hlast : ∀ p', r1.getLast? = some p' → p'.2.flags.noop = false := by
      intro p' hp
      cases ht : termDiverges inspect l with
      | false => exact walk_last l wf hh (hlive ht) hr p' hp
      | true =>
        unfold termDiverges at ht
        simp only [Bool.and_eq_true] at ht
        have hp' := hp
        rw [List.getLast?_eq_getElem?] at hp
        obtain ⟨p, b, q1, q2, q3⟩ := m2 _ p' hp
        have hlp : l.getLast? = some p := by rw [List.getLast?_eq_getElem?, ← m1]; exact q1
        rw [hlp] at ht
        simp only [Option.any_some] at ht
        cases b with
        | false => rw [q2]; exact (wf p (List.mem_of_getElem? q1)).noop
        | true =>
          have := (q3 rfl).2
          unfold InstData.isBranching at this
          rw [ht.2] at this; simp at this
    refine ⟨hmk, hlast, ?_⟩
    have hh2 : Heights (l.take n ++ l.drop n) (blockAcc l).inputs.toNat := by
      rw [List.take_append_drop]; exact hh
    have hr2 : dseWalk code st (l.take n ++ l.drop n) (((blockAcc l).inputs.toNat : Nat) : Int) L = some (r1, L0) := by
      rw [List.take_append_drop]; exact hr
    obtain ⟨l1', l2', Lm, f1, f2, f3⟩ := walk_append hh2 hr2
    have hlen : l1'.length = (l.take n).length := by
      obtain ⟨k, _⟩ := walk_marks (l.take n) (fun p hp => (wf p (List.mem_of_mem_take hp)).noop) f3
      exact k
    have htk : r1.take n = l1' := by
      rw [f1]
      rcases Nat.lt_or_ge l.length n with hn | hn
      · have : l2' = [] := by
          apply List.eq_nil_of_length_eq_zero
          have := m1
          rw [f1, List.length_append, hlen, List.length_take] at this
          omega
        rw [this, List.append_nil, List.take_of_length_le (by rw [hlen, List.length_take]; omega)]
      · have : l1'.length = n := by rw [hlen, List.length_take]; omega
        rw [List.take_left' this]
    have hl0 : LiveIn L0 (blockAcc l).inputs.toNat (List.replicate S.length true) :=
      ⟨fun d _ hd _ => allTrue _ d hd, fun d _ hd => allTrue _ d hd⟩
    obtain ⟨j1, j2, j3, j4, j5⟩ := walk_ok (act := act) (clob := clob) (l.take n)
      (fun p hp => wf p (List.mem_of_mem_take hp)) snap
      hh2.append.1 (fun p hp => hpure p (List.mem_of_mem_take hp)) hok hm f3 hl0
    rw [htk]
    refine ⟨j1, j3, j4, j5, fun hn ht d hd => ?_⟩
    have hdr : l.drop n = [] := List.drop_eq_nil_iff.2 hn
    rw [hdr] at f2
    simp only [dseWalk, Option.some.injEq, Prod.mk.injEq] at f2
    rw [← f2.2, List.take_of_length_le hn] at j2
    rcases Nat.lt_or_ge d (heightAfter l (blockAcc l).inputs.toNat) with hd' | hd'
    · exact j2.live d hd' hd (hlive ht _ (by omega))
    · exact j2.deep d hd' hd

theorem diverging_table : ∀ o : UInt8, (o == op.JUMP) = decide (o.toNat = 0x56) ∧
    [op.STOP, op.RETURN, op.REVERT, op.INVALID, op.SELFDESTRUCT].contains o =
      [0x00, 0xf3, 0xfd, 0xfe, 0xff].contains o.toNat := by decide +kernel

theorem stays_diverges {d : InstData} (h : staysInCall d) : d.isDiverging = false := by
  obtain ⟨h1, h2, h3, h4⟩ := h
  obtain ⟨t1, t2⟩ := diverging_table d.opcode
  unfold InstData.isDiverging
  rw [t1, t2, h1, h2]
  have h3' : [0x00, 0xf3, 0xfd, 0xfe, 0xff].contains d.opcode.toNat = false := by
    rw [← Bool.not_eq_true, List.contains_iff_mem]; exact h3
  rw [h3']
  by_cases h : d.opcode.toNat = 0x56
  · rw [h4 h]; simp
  · simp [h]

theorem term_lives {inspect : Bool} {l : List (Nat × InstData)}
    (h : inspect = true ∨ ∀ p, l.getLast? = some p → staysInCall p.2) : termDiverges inspect l = false := by
  unfold termDiverges
  rcases h with rfl | h
  · rfl
  · cases hl : l.getLast? with
    | none => simp
    | some p => simp [stays_diverges (h p hl)]

end Verif
