import Verif.Lemmas.Dse
import Verif.Spec.Dse
/-!
# The backward walk over a block
-/

namespace Verif
open Spec
variable {F : Type}

/-- The height after instructions. -/
def heightAfter (l : List (Nat × InstData)) (h : Nat) : Nat :=
  l.foldl (fun h p => h - p.2.stackIo.1 + p.2.stackIo.2) h

/-- Every instruction has its operands inside the window, and heights are ordinary numbers. -/
def Heights : List (Nat × InstData) → Nat → Prop
  | [], _ => True
  | p :: l, h => p.2.stackIo.1 ≤ h ∧ h < 2 ^ 64 ∧ h - p.2.stackIo.1 + p.2.stackIo.2 < 2 ^ 64 ∧
      Heights l (h - p.2.stackIo.1 + p.2.stackIo.2)

theorem Heights.append {l1 l2 : List (Nat × InstData)} {h : Nat} (hh : Heights (l1 ++ l2) h) :
    Heights l1 h ∧ Heights l2 (heightAfter l1 h) := by
  induction l1 generalizing h with
  | nil => exact ⟨trivial, hh⟩
  | cons p l1 ih =>
    obtain ⟨a, b, c, d⟩ := hh
    obtain ⟨e, f⟩ := ih d
    exact ⟨⟨a, b, c, e⟩, f⟩

/-- The pass on consecutive parts of a block. -/
theorem walk_append {code : Code} {st : AIState} {l1 l2 l' : List (Nat × InstData)} {h : Nat}
    {L L0 : List Bool} (hh : Heights (l1 ++ l2) h) (he : dseWalk code st (l1 ++ l2) h L = some (l', L0)) :
    ∃ l1' l2' Lm, l' = l1' ++ l2' ∧ dseWalk code st l2 (heightAfter l1 h : Nat) L = some (l2', Lm) ∧
      dseWalk code st l1 h Lm = some (l1', L0) := by
  induction l1 generalizing h l' L0 with
  | nil => exact ⟨[], l', L0, rfl, he, rfl⟩
  | cons p l1 ih =>
    obtain ⟨i, d⟩ := p
    obtain ⟨a, b, c, e⟩ := hh
    rw [List.cons_append, dseWalk] at he
    simp only at a c e
    have ec : (h : Int) + ((d.stackIo.2 : Int) - d.stackIo.1) = ((h - d.stackIo.1 + d.stackIo.2 : Nat) : Int) := by
      omega
    rw [ec] at he
    obtain ⟨r, hr, he⟩ := Option.bind_eq_some_iff.1 he
    obtain ⟨l1', l2', Lm, e1, e2, e3⟩ := ih e hr
    obtain ⟨q, hq, he⟩ := Option.map_eq_some_iff.1 he
    simp only [Prod.mk.injEq] at he
    refine ⟨(i, mark q.1 d) :: l1', l2', Lm, ?_, e2, ?_⟩
    · rw [← he.1, e1]; rfl
    · rw [dseWalk, ec, e3]
      simp only [Option.bind_some, hq, Option.map_some, Option.some.injEq, Prod.mk.injEq]
      exact ⟨rfl, he.2⟩

theorem skip_stackOnly (o : UInt8) (h : canSkipWhenDead o = true) : stackOnly o.toNat = true := by
  revert o; decide +kernel

theorem skip_section (o : UInt8) (h : canSkipWhenDead o = true) :
    ([op.CALL, op.CALLCODE, op.DELEGATECALL, op.STATICCALL, op.CREATE, op.CREATE2].contains o = false) ∧
      (o == op.GAS) = false ∧ (o == op.SSTORE) = false := by
  revert o; decide +kernel

theorem ok_mark {E : Type} {code : Code} {st : AIState} {act : Nat → List Word → List Word × E}
    {clob : Nat → Int → Word} {i : Nat} {d : InstData} {S : List Word} {b : Bool}
    (h : Ok (toT code st act clob (i, d)) S) (hb : b = true → (lowerOf code st i d).leaves = false) :
    Ok (toT code st act clob (i, mark b d)) S := by
  cases b with
  | false => exact h
  | true =>
    exact ⟨h.operands, h.results, h.constIn, h.constOut, fun _ => hb rfl, h.shape⟩

theorem next_mark {E : Type} {code : Code} {st : AIState} {act : Nat → List Word → List Word × E}
    {clob : Nat → Int → Word} {i : Nat} {d : InstData} {S : List Word} {b : Bool} :
    next (toT code st act clob (i, mark b d)) S = next (toT code st act clob (i, d)) S := by
  cases b <;> rfl

theorem events_skipped {t : TInst (Option F)} {S : List Word} (hl : t.lower.leaves = false)
    (hp : ∀ args, (t.act args).2 = none) : visible (events t S) = [] := by
  unfold events
  split
  · cases hx : t.lower <;> rw [hx] at hl <;> simp_all [visible, Lower.leaves]
  · rfl

theorem visible_append (a b : List (Ev (Option F))) : visible (a ++ b) = visible a ++ visible b := by
  simp [visible]

/-- What the pass guarantees about the instructions it leaves. -/
theorem walk_ok {code : Code} {st : AIState} {act : Nat → List Word → List Word × Option F}
    {clob : Nat → Int → Word} (l : List (Nat × InstData)) {l' : List (Nat × InstData)} {h : Nat}
    {L L0 : List Bool} {G : List Bool} {S : List Word}
    (wf : ∀ p ∈ l, Wf code p) (snap : ∀ p ∈ l, FullSnap st p) (hh : Heights l h)
    (hpure : ∀ p ∈ l, stackOnly p.2.opcode.toNat = true → ∀ args, (act p.1 args).2 = none)
    (hok : RunOk (l.map (toT code st act clob)) S) (hm : G.length = S.length)
    (he : dseWalk code st l h L = some (l', L0)) (hl : LiveIn L0 h G) :
    RunReadable (l'.map (toT code st act clob)) G ∧
      LiveIn L (heightAfter l h) (maskRun (l'.map (toT code st act clob)) G) ∧
      RunOk (l'.map (toT code st act clob)) S ∧
      run (l'.map (toT code st act clob)) S = run (l.map (toT code st act clob)) S ∧
      visible (runEvents (l'.map (toT code st act clob)) S) =
        visible (runEvents (l.map (toT code st act clob)) S) := by
  induction l generalizing l' h L0 G S with
  | nil =>
    simp only [dseWalk, Option.some.injEq, Prod.mk.injEq] at he
    obtain ⟨rfl, rfl⟩ := he
    exact ⟨trivial, hl, trivial, rfl, rfl⟩
  | cons p l ih =>
    obtain ⟨i, d⟩ := p
    obtain ⟨h1, h2, h3, h4⟩ := hh
    simp only at h1 h2 h3 h4
    obtain ⟨o1, o2⟩ := hok
    rw [dseWalk, show (h : Int) + ((d.stackIo.2 : Int) - d.stackIo.1) =
      ((h - d.stackIo.1 + d.stackIo.2 : Nat) : Int) by omega] at he
    obtain ⟨r, hr, he⟩ := Option.bind_eq_some_iff.1 he
    obtain ⟨q, hq, he⟩ := Option.map_eq_some_iff.1 he
    simp only [Prod.mk.injEq] at he
    obtain ⟨rfl, rfl⟩ := he
    have hop : d.stackIo.1 ≤ S.length := o1.operands
    obtain ⟨i1, i2, i3⟩ := inst_ok (act := act) (clob := clob) (G := G) (wf _ (by simp)) (snap _ (by simp)) h1
      (by omega) h3 h2 (fun c h0 hc => (o1.constOut c h0 hc).2.2) hq hl
    change RunReadable (toT code st act clob (i, mark q.1 d) :: r.1.map _) G ∧ LiveIn L (heightAfter l _)
      (maskRun (toT code st act clob (i, mark q.1 d) :: r.1.map _) G) ∧
      RunOk (toT code st act clob (i, mark q.1 d) :: r.1.map _) S ∧
      run (toT code st act clob (i, mark q.1 d) :: r.1.map _) S = _ ∧
      visible (runEvents (toT code st act clob (i, mark q.1 d) :: r.1.map _) S) = _
    have o1' := ok_mark o1 (fun h => (i3 h).1)
    obtain ⟨j1, j2, j3, j4, j5⟩ := ih (l' := r.1) (L0 := r.2)
      (S := next (toT code st act clob (i, mark q.1 d)) S)
      (G := maskNext (toT code st act clob (i, mark q.1 d)) G)
      (fun p hp => wf p (by simp [hp])) (fun p hp => snap p (by simp [hp])) h4
      (fun p hp => hpure p (by simp [hp])) (by rw [next_mark]; exact o2) (mask_length o1' hm)
      hr i2
    refine ⟨⟨i1, j1⟩, j2, ⟨o1', j3⟩, ?_, ?_⟩
    · simp only [run, List.map_cons]
      rw [j4, next_mark]
    · simp only [runEvents, List.map_cons, visible_append]
      rw [j5, next_mark]
      congr 1
      cases hb : q.1 with
      | false => rfl
      | true =>
        obtain ⟨k1, k2, k3⟩ := i3 hb
        have hp : ∀ args, (act i args).2 = none := hpure (i, d) (by simp) (skip_stackOnly _ k2)
        rw [events_skipped (t := toT code st act clob (i, d)) k1 hp]
        rfl

/-- The marked instructions are skippable. -/
theorem walk_marks {code : Code} {st : AIState} (l : List (Nat × InstData)) {l' : List (Nat × InstData)}
    {h : Int} {L L0 : List Bool} (hn : ∀ p ∈ l, p.2.flags.noop = false)
    (he : dseWalk code st l h L = some (l', L0)) :
    l'.length = l.length ∧ ∀ (j : Nat) (p' : Nat × InstData), l'[j]? = some p' → ∃ p b, l[j]? = some p ∧
      p' = (p.1, mark b p.2) ∧ (b = true → canSkipWhenDead p.2.opcode = true ∧ p.2.isBranching = false) := by
  induction l generalizing l' h L0 with
  | nil =>
    simp only [dseWalk, Option.some.injEq, Prod.mk.injEq] at he
    obtain ⟨rfl, rfl⟩ := he
    exact ⟨rfl, by simp⟩
  | cons p l ih =>
    obtain ⟨i, d⟩ := p
    rw [dseWalk] at he
    obtain ⟨r, hr, he⟩ := Option.bind_eq_some_iff.1 he
    obtain ⟨q, hq, he⟩ := Option.map_eq_some_iff.1 he
    simp only [Prod.mk.injEq] at he
    obtain ⟨rfl, rfl⟩ := he
    obtain ⟨a, b⟩ := ih (fun p hp => hn p (by simp [hp])) hr
    refine ⟨by simp [a], fun j p' hp => ?_⟩
    cases j with
    | succ j => simp only [List.getElem?_cons_succ] at hp ⊢; exact b j p' hp
    | zero =>
      simp only [List.getElem?_cons_zero, Option.some.injEq] at hp ⊢
      refine ⟨(i, d), q.1, rfl, hp.symm, fun hb => ?_⟩
      unfold dseInst at hq
      split at hq
      · have hq := (Option.some.inj hq).symm
        rw [hq] at hb; simp at hb
      · simp only at hq
        obtain ⟨dead, hdead, hq⟩ := Option.bind_eq_some_iff.1 hq
        cases dead with
        | true =>
          apply Decidable.by_contra
          intro hc
          rw [if_neg] at hdead
          · simp at hdead
          · intro hx
            simp only [Bool.and_eq_true, Bool.not_eq_true'] at hx
            exact hc hx.1
        | false =>
          rw [if_neg (by simp)] at hq
          obtain ⟨L1, _, hq⟩ := Option.bind_eq_some_iff.1 hq
          have hq1 : q.1 = false := by
            split at hq
            · split at hq
              · rw [← Option.some.inj hq]
              · simp at hq
            · rw [← Option.some.inj hq]
          rw [hq1] at hb; simp at hb

/-- The last instruction is not marked if everything it leaves is live. -/
theorem walk_last {code : Code} {st : AIState} (l : List (Nat × InstData)) {l' : List (Nat × InstData)}
    {h : Nat} {L L0 : List Bool} (wf : ∀ p ∈ l, Wf code p) (hh : Heights l h)
    (hlive : ∀ j, j < heightAfter l h → L[j]? = some true)
    (he : dseWalk code st l h L = some (l', L0)) (p' : Nat × InstData) (hp : l'.getLast? = some p') :
    p'.2.flags.noop = false := by
  have hne : l ≠ [] := by
    rintro rfl
    simp only [dseWalk, Option.some.injEq, Prod.mk.injEq] at he
    rw [← he.1] at hp; simp at hp
  obtain ⟨l0, ⟨i, d⟩, rfl⟩ : ∃ l0 p, l = l0 ++ [p] := ⟨l.dropLast, l.getLast hne, (List.dropLast_concat_getLast hne).symm⟩
  obtain ⟨l1', l2', Lm, e1, e2, e3⟩ := walk_append hh he
  have hd := hh.append.2
  have wf' : Wf code (i, d) := wf _ (by simp)
  have hal : heightAfter (l0 ++ [(i, d)]) h = heightAfter l0 h - d.stackIo.1 + d.stackIo.2 := by
    simp [heightAfter]
  rw [hal] at hlive
  generalize heightAfter l0 h = k at *
  obtain ⟨h1, h2, h3, _⟩ := hd
  simp only at h1 h3
  rw [dseWalk, dseWalk, Option.bind_some] at e2
  obtain ⟨q, hq, e2⟩ := Option.map_eq_some_iff.1 e2
  simp only [Prod.mk.injEq] at e2
  rw [e1, ← e2.1, List.getLast?_append] at hp
  simp only [List.getLast?_singleton, Option.some_or, Option.some.injEq] at hp
  subst hp
  have hn : d.flags.noop = false := wf'.noop
  cases hb : q.1 with
  | false => simpa using hn
  | true =>
    exfalso
    unfold dseInst at hq
    by_cases hoff : (d.flags.disabled || d.flags.unknown) = true
    · rw [if_pos (by rw [Bool.or_assoc, hoff]; simp)] at hq
      rw [← Option.some.inj hq] at hb; simp at hb
    · have hoff : (d.flags.disabled || d.flags.unknown) = false := by simpa using hoff
      rw [if_neg (by rw [Bool.or_assoc, hoff, hn]; simp)] at hq
      simp only [asUsize_of h2] at hq
      have kd := kind_of (st := st) wf' hoff
      obtain ⟨dead, hdead, hq⟩ := Option.bind_eq_some_iff.1 hq
      cases dead with
      | false =>
        rw [if_neg (by simp)] at hq
        obtain ⟨L1, _, hq⟩ := Option.bind_eq_some_iff.1 hq
        have hq1 : q.1 = false := by
          split at hq
          · split at hq
            · rw [← Option.some.inj hq]
            · simp at hq
          · rw [← Option.some.inj hq]
        rw [hq1] at hb; simp at hb
      | true =>
        have hsk : (canSkipWhenDead d.opcode && !d.isBranching && !d.isDiverging) = true := by
          apply Decidable.by_contra
          intro hc; rw [if_neg hc] at hdead; simp at hdead
        rw [if_pos hsk] at hdead
        cases kd with
        | exchange n m hm io low dead tr ns =>
          rw [io] at hdead hlive h1
          simp only at hdead hlive h1
          rw [dead L k (by omega)] at hdead
          have := (exDead_true hdead).1
          rw [hlive _ (by omega)] at this; simp at this
        | dup n hn io low dead tr ns =>
          rw [io] at hdead hlive h1
          simp only at hdead hlive h1
          rw [dead L k h1, hlive _ (by omega)] at hdead
          simp at hdead
        | pop io low skip tr ns => rw [skip] at hsk; simp at hsk
        | fail io low dead tr ns => rw [io, dead] at hdead; simp at hdead
        | generic io low dead tr =>
          rw [dead L k h1] at hdead
          simp only [Option.some.injEq, Bool.and_eq_true, decide_eq_true_eq] at hdead
          exact rangeDead_iff hdead.2 hdead.1 (hlive _ (by omega))

/-! ## Windows -/

theorem acc_fold {E : Type} (code : Code) (st : AIState) (act : Nat → List Word → List Word × E)
    (clob : Nat → Int → Word) (l : List (Nat × InstData)) (a : StackAcc) :
    (l.map (toT code st act clob)).foldl (fun a t => a.process t.inp t.out) a =
      l.foldl (fun a p => a.process p.2.stackIo.1 p.2.stackIo.2) a := by
  rw [List.foldl_map]; rfl

/-- The window `[-I, M]` is enough for the instructions. -/
def Window (l : List (Nat × InstData)) (a : StackAcc) (I M : Int) : Prop :=
  (l.foldl (fun a p => a.process p.2.stackIo.1 p.2.stackIo.2) a).inputs ≤ I ∧
    (l.foldl (fun a p => a.process p.2.stackIo.1 p.2.stackIo.2) a).maxGrowth ≤ M

theorem window_mono (l : List (Nat × InstData)) (a : StackAcc) :
    a.inputs ≤ (l.foldl (fun a p => a.process p.2.stackIo.1 p.2.stackIo.2) a).inputs ∧
      a.maxGrowth ≤ (l.foldl (fun a p => a.process p.2.stackIo.1 p.2.stackIo.2) a).maxGrowth := by
  induction l generalizing a with
  | nil => exact ⟨Int.le_refl _, Int.le_refl _⟩
  | cons p l ih =>
    have := ih (a.process p.2.stackIo.1 p.2.stackIo.2)
    have h1 : (a.process p.2.stackIo.1 p.2.stackIo.2).inputs = max a.inputs ((p.2.stackIo.1 : Int) - a.diff) := rfl
    have h2 : (a.process p.2.stackIo.1 p.2.stackIo.2).maxGrowth =
      max a.maxGrowth (a.diff + ((p.2.stackIo.2 : Int) - p.2.stackIo.1)) := rfl
    simp only [List.foldl_cons]
    omega

theorem Window.head {p : Nat × InstData} {l : List (Nat × InstData)} {a : StackAcc} {I M : Int}
    (h : Window (p :: l) a I M) : (p.2.stackIo.1 : Int) - a.diff ≤ I ∧
      a.diff + ((p.2.stackIo.2 : Int) - p.2.stackIo.1) ≤ M ∧
      Window l (a.process p.2.stackIo.1 p.2.stackIo.2) I M := by
  have hm := window_mono l (a.process p.2.stackIo.1 p.2.stackIo.2)
  have h1 : (a.process p.2.stackIo.1 p.2.stackIo.2).inputs = max a.inputs ((p.2.stackIo.1 : Int) - a.diff) := rfl
  have h2 : (a.process p.2.stackIo.1 p.2.stackIo.2).maxGrowth =
    max a.maxGrowth (a.diff + ((p.2.stackIo.2 : Int) - p.2.stackIo.1)) := rfl
  obtain ⟨h3, h4⟩ := h
  simp only [List.foldl_cons] at h3 h4
  exact ⟨by omega, by omega, h3, h4⟩

theorem Window.append {as bs : List (Nat × InstData)} {a : StackAcc} {I M : Int}
    (h : Window (as ++ bs) a I M) (hlo : -I ≤ a.diff) (hhi : a.diff ≤ M) :
    Window as a I M ∧
      Window bs (as.foldl (fun a p => a.process p.2.stackIo.1 p.2.stackIo.2) a) I M ∧
      -I ≤ (as.foldl (fun a p => a.process p.2.stackIo.1 p.2.stackIo.2) a).diff ∧
      (as.foldl (fun a p => a.process p.2.stackIo.1 p.2.stackIo.2) a).diff ≤ M := by
  induction as generalizing a with
  | nil =>
    have := window_mono bs a
    refine ⟨⟨?_, ?_⟩, h, hlo, hhi⟩
    · exact Int.le_trans this.1 h.1
    · exact Int.le_trans this.2 h.2
  | cons p as ih =>
    obtain ⟨h1, h2, h3⟩ := Window.head (l := as ++ bs) h
    have e : (a.process p.2.stackIo.1 p.2.stackIo.2).diff = a.diff + ((p.2.stackIo.2 : Int) - p.2.stackIo.1) := rfl
    obtain ⟨i1, i2, i3, i4⟩ := ih (a := a.process p.2.stackIo.1 p.2.stackIo.2) h3 (by omega) (by omega)
    exact ⟨i1, i2, i3, i4⟩

/-- The same instructions counted from another point. -/
theorem Window.shift {l : List (Nat × InstData)} {a b : StackAcc} {I M : Int} (h : Window l a I M)
    (hi : b.inputs ≤ I + (a.diff - b.diff)) (hg : b.maxGrowth ≤ M - (a.diff - b.diff)) :
    Window l b (I + (a.diff - b.diff)) (M - (a.diff - b.diff)) := by
  induction l generalizing a b with
  | nil => exact ⟨hi, hg⟩
  | cons p l ih =>
    obtain ⟨h1, h2, h3⟩ := h.head
    have e : (a.process p.2.stackIo.1 p.2.stackIo.2).diff = a.diff + ((p.2.stackIo.2 : Int) - p.2.stackIo.1) := rfl
    have e1 : (b.process p.2.stackIo.1 p.2.stackIo.2).diff = b.diff + ((p.2.stackIo.2 : Int) - p.2.stackIo.1) := rfl
    have e2 : (b.process p.2.stackIo.1 p.2.stackIo.2).inputs = max b.inputs ((p.2.stackIo.1 : Int) - b.diff) := rfl
    have e3 : (b.process p.2.stackIo.1 p.2.stackIo.2).maxGrowth =
      max b.maxGrowth (b.diff + ((p.2.stackIo.2 : Int) - p.2.stackIo.1)) := rfl
    have := ih (b := b.process p.2.stackIo.1 p.2.stackIo.2) h3 (by omega) (by omega)
    have hd : (a.process p.2.stackIo.1 p.2.stackIo.2).diff - (b.process p.2.stackIo.1 p.2.stackIo.2).diff =
      a.diff - b.diff := by omega
    rw [hd] at this
    exact this

theorem heights_of {l : List (Nat × InstData)} {a : StackAcc} {I M : Int} (h : Window l a I M)
    (hlo : -I ≤ a.diff) (hhi : a.diff ≤ M) (hb : I + M ≤ 98302) :
    Heights l (I + a.diff).toNat ∧ ((heightAfter l (I + a.diff).toNat : Nat) : Int) =
      I + (l.foldl (fun a p => a.process p.2.stackIo.1 p.2.stackIo.2) a).diff := by
  induction l generalizing a with
  | nil => exact ⟨trivial, by simp [heightAfter]; omega⟩
  | cons p l ih =>
    obtain ⟨h1, h2, h3⟩ := h.head
    have e : (a.process p.2.stackIo.1 p.2.stackIo.2).diff = a.diff + ((p.2.stackIo.2 : Int) - p.2.stackIo.1) := rfl
    obtain ⟨i1, i2⟩ := ih h3 (by omega) (by omega)
    have en : (I + a.diff).toNat - p.2.stackIo.1 + p.2.stackIo.2 =
        (I + (a.process p.2.stackIo.1 p.2.stackIo.2).diff).toNat := by omega
    refine ⟨⟨by omega, by omega, by omega, ?_⟩, ?_⟩
    · rw [en]; exact i1
    · simp only [heightAfter, List.foldl_cons] at i2 ⊢
      rw [en]; exact i2

/-! ## Sections of a block -/

theorem split_flatten (spec : SpecId) (l : List (Nat × InstData)) : (splitSections spec l).flatten = l := by
  induction l with
  | nil => rfl
  | cons p l ih =>
    unfold splitSections
    split
    · rw [List.flatten_cons, ih]; rfl
    · split
      · rename_i h; rw [h] at ih; simp at ih; simp [← ih]
      · rename_i s ss h; rw [h] at ih; simp only [List.flatten_cons] at ih ⊢; simp [ih]

theorem split_at (spec : SpecId) (l : List (Nat × InstData)) :
    ∀ pre ts post, splitSections spec l = pre ++ ts :: post →
      ts ≠ [] ∧ (∀ p ∈ ts.dropLast, p.2.endsSection spec = false) ∧
      (∀ p, ts.getLast? = some p → p.2.endsSection spec = true ∨ post = []) := by
  induction l with
  | nil => intro pre ts post h; simp [splitSections] at h
  | cons p l ih =>
    intro pre ts post h
    unfold splitSections at h
    by_cases hp : p.2.endsSection spec = true
    · rw [if_pos hp] at h
      cases pre with
      | nil =>
        simp only [List.nil_append, List.cons.injEq] at h
        obtain ⟨rfl, rfl⟩ := h
        exact ⟨by simp, by simp, fun q hq => .inl (by simp at hq; rw [← hq]; exact hp)⟩
      | cons x pre =>
        simp only [List.cons_append, List.cons.injEq] at h
        exact ih pre ts post h.2
    · rw [if_neg hp] at h
      cases hs : splitSections spec l with
      | nil =>
        rw [hs] at h
        simp only at h
        cases pre with
        | nil =>
          simp only [List.nil_append, List.cons.injEq] at h
          obtain ⟨rfl, rfl⟩ := h
          exact ⟨by simp, by simp, fun q _ => .inr rfl⟩
        | cons x pre =>
          simp only [List.cons_append, List.cons.injEq] at h
          have := h.2; simp at this
      | cons s ss =>
        rw [hs] at h
        simp only at h
        cases pre with
        | nil =>
          simp only [List.nil_append, List.cons.injEq] at h
          obtain ⟨rfl, rfl⟩ := h
          obtain ⟨h2, h3, h4⟩ := ih [] s ss hs
          cases s with
          | nil => exact absurd rfl h2
          | cons x s =>
            refine ⟨by simp, fun q hq => ?_, fun q hq => ?_⟩
            · rw [List.dropLast_cons_cons] at hq
              rcases List.mem_cons.1 hq with rfl | hq
              · simpa using hp
              · exact h3 q hq
            · rw [List.getLast?_cons_cons] at hq
              exact h4 q hq
        | cons x pre =>
          simp only [List.cons_append, List.cons.injEq] at h
          exact ih (s :: pre) ts post (by rw [hs, h.2]; rfl)

end Verif
