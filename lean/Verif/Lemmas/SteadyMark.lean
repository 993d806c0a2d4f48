import Verif.Lemmas.DedupSteady
/-!
# Dead-code marking leaves exactly the entered instructions

Used to show that the analysed program is in the state that deduplication starts from.
-/

namespace Verif
open Spec

/-! ## The marking loop position by position -/

/-- The state of the marking loop after instruction `d` at `i`. -/
def mnext (dyn : Bool) (i : Nat) (k : Option (Option Nat)) (d : InstData) : Option (Option Nat) :=
  match k with
  | none =>
    if d.canFallThrough = true then none
    else if d.isStaticJump = true ∧ d.staticJumpTarget = i + 1 then none
    else some (if d.isStaticJump && decide (i < d.staticJumpTarget) then some d.staticJumpTarget else none)
  | some st => if st = some i ∨ d.isReachableJumpdest dyn = true then none else some st

/-- Whether the marking loop marks instruction `d` at `i`. -/
def mkills (dyn : Bool) (i : Nat) (k : Option (Option Nat)) (d : InstData) : Bool :=
  match k with
  | none => false
  | some st => !(decide (st = some i) || d.isReachableJumpdest dyn)

theorem mkills_some {dyn : Bool} {i : Nat} {st : Option Nat} {d : InstData} :
    mkills dyn i (some st) d = false ↔ st = some i ∨ d.isReachableJumpdest dyn = true := by
  unfold mkills
  simp only [Bool.not_eq_false', Bool.or_eq_true, decide_eq_true_eq]

/-- The instruction after the marking loop. -/
def mout (dyn : Bool) (i : Nat) (k : Option (Option Nat)) (d : InstData) : InstData :=
  if mkills dyn i k d = true then { d with flags := { d.flags with deadCode := true } } else d

theorem markLoop_cons (dyn : Bool) (i : Nat) (k : Option (Option Nat)) (d : InstData) (ds : List InstData) :
    markLoop dyn i k (d :: ds) = mout dyn i k d :: markLoop dyn (i + 1) (mnext dyn i k d) ds := by
  cases k with
  | none =>
    rw [markLoop]
    have ho : mout dyn i none d = d := rfl
    rw [ho]
    unfold mnext
    dsimp only
    cases hf : d.canFallThrough with
    | true => simp
    | false =>
      simp only [Bool.not_false, if_true, Bool.false_eq_true, if_false]
      by_cases hs : d.isStaticJump = true ∧ d.staticJumpTarget = i + 1
      · rw [if_pos hs, if_pos]
        rw [hs.1, hs.2]; simp
      · rw [if_neg hs, if_neg]
        intro h
        apply hs
        cases h1 : d.isStaticJump with
        | false => rw [h1] at h; simp at h
        | true =>
          rw [h1] at h
          simp only [Bool.true_and] at h
          split at h
          · exact ⟨rfl, Option.some.inj h⟩
          · simp at h
  | some st =>
    rw [markLoop]
    unfold mnext mout mkills
    dsimp only
    by_cases h : st = some i ∨ d.isReachableJumpdest dyn = true
    · rw [if_pos h, if_pos h]
      have : (!(decide (st = some i) || d.isReachableJumpdest dyn)) = false := by
        rcases h with h | h <;> simp [h]
      simp [this]
    · rw [if_neg h, if_neg h]
      have : (!(decide (st = some i) || d.isReachableJumpdest dyn)) = true := by
        rw [not_or] at h
        simp [h.1, h.2]
      simp [this]

/-- The state of the marking loop before position `j`. -/
def mstate (dyn : Bool) (l : List InstData) : Nat → Option (Option Nat)
  | 0 => none
  | j + 1 => match l[j]? with
    | none => mstate dyn l j
    | some d => mnext dyn j (mstate dyn l j) d

theorem markLoop_at (dyn : Bool) (l : List InstData) : ∀ (ds : List InstData) (i : Nat), ds = l.drop i →
    ∀ j, (markLoop dyn i (mstate dyn l i) ds)[j]? = (ds[j]?).map (mout dyn (i + j) (mstate dyn l (i + j))) := by
  intro ds
  induction ds with
  | nil => intro i h j; cases mstate dyn l i <;> simp [markLoop]
  | cons d ds ih =>
    intro i h j
    have hd : l[i]? = some d := by
      have := congrArg (fun x => x[0]?) h
      simp only [List.getElem?_cons_zero, List.getElem?_drop, Nat.add_zero] at this
      exact this.symm
    have hds : ds = l.drop (i + 1) := by
      have := congrArg List.tail h
      simpa using this
    rw [markLoop_cons]
    cases j with
    | zero => simp
    | succ j =>
      have hs : mnext dyn i (mstate dyn l i) d = mstate dyn l (i + 1) := by
        show _ = (match l[i]? with
          | none => mstate dyn l i
          | some d => mnext dyn i (mstate dyn l i) d)
        rw [hd]
      rw [hs, List.getElem?_cons_succ, List.getElem?_cons_succ, ih (i + 1) hds j]
      rw [show i + 1 + j = i + (j + 1) by omega]

theorem markLoop_closed (dyn : Bool) (l : List InstData) (j : Nat) :
    (markLoop dyn 0 none l)[j]? = (l[j]?).map (mout dyn j (mstate dyn l j)) := by
  have := markLoop_at dyn l l 0 rfl j
  simpa [mstate] using this

theorem mout_flags (dyn : Bool) (i : Nat) (k : Option (Option Nat)) (d : InstData) : SameJump d (mout dyn i k d) ∧
    (mout dyn i k d).reachable = d.reachable ∧ (mout dyn i k d).flags.disabled = d.flags.disabled ∧
    (mout dyn i k d).flags.unknown = d.flags.unknown ∧
    ((mout dyn i k d).flags.deadCode = false ↔ d.flags.deadCode = false ∧ mkills dyn i k d = false) := by
  unfold mout
  cases h : mkills dyn i k d with
  | true => exact ⟨⟨rfl, rfl, rfl, rfl, rfl, rfl⟩, rfl, rfl, rfl, by simp⟩
  | false => exact ⟨.refl _, rfl, rfl, rfl, by simp⟩

/-! ## What holds between the passes -/

/-- The live part of a program is closed under its jumps; see `Anch` for the converse. -/
structure Shut (p : Prog) : Prop where
  zero : LiveAt p.insts 0
  tgt : ∀ (i : Nat) d t, p.insts[i]? = some d → t ∈ p.targetsOf i d → LiveAt p.insts t
  dynl : ∀ (i : Nat) d, p.insts[i]? = some d → d.isJump = true → d.flags.staticJump = false → d.flags.deadCode = false →
    ∀ (j : Nat) e, p.insts[j]? = some e → e.isJumpdest = true → e.flags.deadCode = false
  edge : ∀ (i : Nat) d e, p.insts[i]? = some d → p.insts[i + 1]? = some e → d.flags.deadCode = false →
    e.flags.deadCode = true → d.canFallThrough = false
  dest : ∀ (i : Nat) d, p.insts[i]? = some d → Single d = true →
    d.data = i + 1 ∨ ∃ e, p.insts[d.data]? = some e ∧ e.isJumpdest = true
  stale : ∀ (i : Nat) d, p.insts[i]? = some d → d.isJump = true → Single d = false → d.data ≤ i
  mdest : ∀ (i : Nat) d, p.insts[i]? = some d → d.flags.multiJump = true → ∀ t ∈ multiAt p i,
    ∃ e, p.insts[t]? = some e ∧ e.isJumpdest = true
  on : ∀ (j : Nat) e, p.insts[j]? = some e → e.isJumpdest = true ∨ e.isJump = true →
    e.flags.disabled = false ∧ e.flags.unknown = false
  more : ∀ (j : Nat) e, p.insts[j]? = some e → e.opcode = op.JUMPI → j + 1 < p.insts.length

/-- The flags computed from the jumps are up to date. -/
structure CfgFresh (p : Prog) : Prop where
  dyn : p.hasDyn = p.recomputeHasDyn.hasDyn
  reach : ∀ (j : Nat) d, p.insts[j]? = some d → d.isJumpdest = true → (d.reachable = true ↔ JumpsTo p j)

theorem jumpdest_falls {d : InstData} (h : d.isJumpdest = true) (h1 : d.flags.disabled = false)
    (h2 : d.flags.unknown = false) : d.canFallThrough = true := by
  unfold InstData.isJumpdest at h
  have ho : d.opcode = op.JUMPDEST := by simpa using h
  unfold InstData.canFallThrough InstData.isDiverging InstData.hasConstJumpiCondition
  rw [ho, h1, h2]
  rfl

theorem hasDyn_iff {p : Prog} : p.recomputeHasDyn.hasDyn = true ↔
    ∃ (i : Nat) (d : InstData), p.insts[i]? = some d ∧ d.isJump = true ∧ d.flags.staticJump = false ∧
      d.flags.deadCode = false := by
  show (p.insts.any fun d => d.isJump && !d.flags.staticJump && !d.flags.deadCode) = true ↔ _
  rw [List.any_eq_true]
  constructor
  · rintro ⟨d, hd, h⟩
    obtain ⟨i, hi⟩ := List.mem_iff_getElem?.1 hd
    simp only [Bool.and_eq_true, Bool.not_eq_true'] at h
    exact ⟨i, d, hi, h.1.1, h.1.2, h.2⟩
  · rintro ⟨i, d, hd, h1, h2, h3⟩
    exact ⟨d, List.mem_of_getElem? hd, by simp [h1, h2, h3]⟩

theorem single_target {p : Prog} {i : Nat} {d : InstData} (h : Single d = true) (hl : d.flags.deadCode = false) :
    d.data ∈ p.targetsOf i d := by
  unfold Single at h
  simp only [Bool.and_eq_true, Bool.not_eq_true'] at h
  unfold Prog.targetsOf InstData.staticJumpTarget
  rw [h.1.1, h.1.2, h.2, hl]
  simp

section mark
variable {p : Prog} (S : Shut p) (R : CfgFresh p)
include S R

theorem Shut.rj_live {j : Nat} {d : InstData} (hd : p.insts[j]? = some d) (h : d.isReachableJumpdest p.hasDyn = true) :
    d.flags.deadCode = false ∧ d.isJumpdest = true := by
  unfold InstData.isReachableJumpdest at h
  rw [Bool.and_eq_true, Bool.or_eq_true] at h
  refine ⟨?_, h.1⟩
  rcases h.2 with h2 | h2
  · rw [R.dyn] at h2
    obtain ⟨i, e, h1, h2, h3, h4⟩ := hasDyn_iff.1 h2
    exact S.dynl i e h1 h2 h3 h4 j d hd h.1
  · obtain ⟨i, e, h1, h3⟩ := (R.reach j d hd h.1).1 h2
    obtain ⟨d', g1, g2⟩ := S.tgt i e j h1 h3
    rw [hd] at g1; cases g1
    exact g2

/-- What the state of the marking loop says about the position. -/
structure MarkAt (p : Prog) (j : Nat) : Prop where
  dead : ∀ d, p.insts[j]? = some d → d.flags.deadCode = true →
    ∃ st, mstate p.hasDyn p.insts j = some st ∧ st ≠ some j
  stop : ∀ t, mstate p.hasDyn p.insts j = some (some t) → (∃ e, p.insts[t]? = some e ∧ e.isJumpdest = true) ∧
    ∃ i d, p.insts[i]? = some d ∧ t ∈ p.targetsOf i d ∧ mkills p.hasDyn i (mstate p.hasDyn p.insts i) d = false
  enter : 0 < j → j ≤ p.insts.length → mstate p.hasDyn p.insts j = none →
    ∃ d, p.insts[j - 1]? = some d ∧ d.flags.deadCode = false ∧
      mkills p.hasDyn (j - 1) (mstate p.hasDyn p.insts (j - 1)) d = false ∧
      (d.canFallThrough = true ∨ (Single d = true ∧ d.data = j))

omit S R in
theorem mstate_succ {dyn : Bool} {l : List InstData} {j : Nat} {d : InstData} (h : l[j]? = some d) :
    mstate dyn l (j + 1) = mnext dyn j (mstate dyn l j) d := by
  show (match l[j]? with
    | none => mstate dyn l j
    | some d => mnext dyn j (mstate dyn l j) d) = _
  rw [h]

theorem Shut.markAt (j : Nat) : MarkAt p j := by
  induction j with
  | zero =>
    refine ⟨fun d hd hx => ?_, fun t h => ?_, fun h => by omega⟩
    · obtain ⟨d', h1, h2⟩ := S.zero
      rw [hd] at h1; cases h1
      rw [hx] at h2; cases h2
    · exact nomatch h
  | succ j ih =>
    cases hd : p.insts[j]? with
    | none =>
      have hs : mstate p.hasDyn p.insts (j + 1) = mstate p.hasDyn p.insts j := by
        show (match p.insts[j]? with
          | none => mstate p.hasDyn p.insts j
          | some d => mnext p.hasDyn j (mstate p.hasDyn p.insts j) d) = _
        rw [hd]
      rw [List.getElem?_eq_none_iff] at hd
      refine ⟨fun d hd' => ?_, fun t ht => ih.stop t (hs ▸ ht), fun _ h => by omega⟩
      have := (List.getElem?_eq_some_iff.1 hd').1
      omega
    | some d =>
      have hs := mstate_succ (dyn := p.hasDyn) hd
      -- the static target of an examined jump
      have hexam : mstate p.hasDyn p.insts j = none → d.flags.deadCode = false := fun hk => by
        cases hx : d.flags.deadCode with
        | false => rfl
        | true =>
          obtain ⟨st, h1, _⟩ := ih.dead d hd hx
          rw [hk] at h1; cases h1
      have hsingle : ∀ t, d.isStaticJump = true → j < t → d.data = t → Single d = true := fun t h1 h2 h3 => by
        cases hx : Single d with
        | true => rfl
        | false =>
          unfold InstData.isStaticJump at h1
          rw [Bool.and_eq_true] at h1
          have := S.stale j d hd h1.1 hx
          omega
      have stopped : ∀ st, mstate p.hasDyn p.insts j = some st → st = some j ∨ d.isReachableJumpdest p.hasDyn = true →
          d.flags.deadCode = false ∧ d.canFallThrough = true := fun st hk h => by
        have hjd : d.isJumpdest = true := by
          rcases h with h | h
          · obtain ⟨⟨e, he, hj⟩, _⟩ := ih.stop j (by rw [hk, h])
            rw [hd] at he; cases he
            exact hj
          · exact (S.rj_live R hd h).2
        refine ⟨?_, jumpdest_falls hjd (S.on j d hd (.inl hjd)).1 (S.on j d hd (.inl hjd)).2⟩
        cases hx : d.flags.deadCode with
        | false => rfl
        | true =>
          obtain ⟨st', h1, h2⟩ := ih.dead d hd hx
          rw [hk] at h1; cases h1
          rcases h with h | h
          · exact absurd h h2
          · rw [(S.rj_live R hd h).1] at hx; cases hx
      have keep : ∀ e, p.insts[j + 1]? = some e → e.flags.deadCode = true → ∀ i d', p.insts[i]? = some d' →
          (j + 1) ∉ p.targetsOf i d' := fun e he hx i d' hd' ht => by
        obtain ⟨e', g1, g2⟩ := S.tgt i d' _ hd' ht
        rw [he] at g1; cases g1
        rw [hx] at g2; cases g2
      refine ⟨fun e he hx => ?_, fun t ht => ?_, fun _ _ hn => ?_⟩
      · rw [hs]
        cases hk : mstate p.hasDyn p.insts j with
        | none =>
          have hl := hexam hk
          have hf := S.edge j d e hd he hl hx
          unfold mnext
          dsimp only
          rw [if_neg (by rw [hf]; simp)]
          have hns : ¬ (d.isStaticJump = true ∧ d.staticJumpTarget = j + 1) := fun ⟨h1, h2⟩ =>
            keep e he hx j d hd (by
              have h2 : d.data = j + 1 := h2
              rw [← h2]
              exact single_target (hsingle _ h1 (by omega) h2) hl)
          rw [if_neg hns]
          refine ⟨_, rfl, fun h => hns ?_⟩
          cases h1 : d.isStaticJump with
          | false => rw [h1] at h; simp at h
          | true =>
            rw [h1] at h
            split at h
            · exact ⟨rfl, Option.some.inj h⟩
            · cases h
        | some st =>
          have hno : ¬ (st = some j ∨ d.isReachableJumpdest p.hasDyn = true) := fun h => by
            obtain ⟨h1, h2⟩ := stopped st hk h
            rw [S.edge j d e hd he h1 hx] at h2
            cases h2
          unfold mnext
          dsimp only
          rw [if_neg hno]
          refine ⟨st, rfl, fun h => ?_⟩
          obtain ⟨_, i, d', g1, g2, _⟩ := ih.stop (j + 1) (by rw [hk, h])
          exact keep e he hx i d' g1 g2
      · rw [hs] at ht
        cases hk : mstate p.hasDyn p.insts j with
        | none =>
          rw [hk] at ht
          unfold mnext at ht
          dsimp only at ht
          split at ht
          · cases ht
          · split at ht
            · cases ht
            · rename_i hns
              have ht := Option.some.inj ht
              split at ht
              · rename_i h
                rw [Bool.and_eq_true, decide_eq_true_eq] at h
                have ht : d.data = t := Option.some.inj ht
                have hlt : j < t := by rw [← ht]; exact h.2
                have hsg := hsingle t h.1 hlt ht
                refine ⟨?_, j, d, hd, by rw [← ht]; exact single_target hsg (hexam hk), by rw [hk]; rfl⟩
                rcases S.dest j d hd hsg with h1 | h1
                · exact absurd ⟨h.1, h1⟩ hns
                · rw [← ht]; exact h1
              · cases ht
        | some st =>
          rw [hk] at ht
          unfold mnext at ht
          dsimp only at ht
          split at ht
          · cases ht
          · exact ih.stop t (by rw [hk]; exact ht)
      · rw [hs] at hn
        refine ⟨d, by simpa using hd, ?_⟩
        rw [Nat.add_sub_cancel]
        cases hk : mstate p.hasDyn p.insts j with
        | none =>
          rw [hk] at hn
          refine ⟨hexam hk, rfl, ?_⟩
          unfold mnext at hn
          dsimp only at hn
          split at hn
          · rename_i h; exact .inl h
          · split at hn
            · rename_i h
              have h2 : d.data = j + 1 := h.2
              exact .inr ⟨hsingle _ h.1 (by omega) h2, h2⟩
            · cases hn
        | some st =>
          rw [hk] at hn
          unfold mnext at hn
          dsimp only at hn
          split at hn
          · rename_i h
            obtain ⟨h1, h2⟩ := stopped st hk h
            refine ⟨h1, ?_, .inl h2⟩
            unfold mkills
            dsimp only
            rcases h with h | h
            · simp [h]
            · simp [h]
          · cases hn

end mark

theorem targetsOf_congr {p p' : Prog} (hm : p'.multi = p.multi) {i : Nat} {d d' : InstData} (h : SameJump d d')
    (hl : d'.flags.deadCode = d.flags.deadCode) : p'.targetsOf i d' = p.targetsOf i d := by
  unfold Prog.targetsOf InstData.isStaticJump InstData.staticJumpTarget
  rw [hm, h.isJump, h.sta, h.inv, h.mul, h.dat, hl]

theorem single_congr {d d' : InstData} (h : SameJump d d') : Single d' = Single d := by
  unfold Single InstData.isStaticJump
  rw [h.isJump, h.sta, h.inv, h.mul]

theorem static_congr {d d' : InstData} (h : SameJump d d') : d'.isStaticJump = d.isStaticJump := by
  unfold InstData.isStaticJump
  rw [h.isJump, h.sta]

theorem jumpdest_congr {d d' : InstData} (h : SameJump d d') : d'.isJumpdest = d.isJumpdest := by
  unfold InstData.isJumpdest; rw [h.op]

theorem falls_congr {d d' : InstData} (h : SameJump d d') (h1 : d'.flags.disabled = d.flags.disabled)
    (h2 : d'.flags.unknown = d.flags.unknown) : d'.canFallThrough = d.canFallThrough := by
  unfold InstData.canFallThrough InstData.isDiverging InstData.hasConstJumpiCondition
  rw [h.op, h.inv, h.con, h1, h2]

/-- A round of marking. -/
def Prog.mark (p : Prog) : Prog := { p with insts := markLoop p.hasDyn 0 none p.insts }

theorem mark_get {p : Prog} {j : Nat} {d' : InstData} (h : p.mark.insts[j]? = some d') :
    ∃ d, p.insts[j]? = some d ∧ d' = mout p.hasDyn j (mstate p.hasDyn p.insts j) d := by
  have h : (markLoop p.hasDyn 0 none p.insts)[j]? = some d' := h
  rw [markLoop_closed] at h
  obtain ⟨d, h1, h2⟩ := Option.map_eq_some_iff.1 h
  exact ⟨d, h1, h2.symm⟩

theorem mark_put {p : Prog} {j : Nat} {d : InstData} (h : p.insts[j]? = some d) :
    p.mark.insts[j]? = some (mout p.hasDyn j (mstate p.hasDyn p.insts j) d) := by
  show (markLoop p.hasDyn 0 none p.insts)[j]? = _
  rw [markLoop_closed, h]
  rfl

/-- Marking keeps the program closed. -/
theorem Shut.mark {p : Prog} (S : Shut p) (R : CfgFresh p) : Shut p.mark := by
  have hnk : ∀ (j : Nat) d, p.insts[j]? = some d → d.flags.deadCode = false →
      mkills p.hasDyn j (mstate p.hasDyn p.insts j) d = false → LiveAt p.mark.insts j := fun j d hd hl hk =>
    ⟨_, mark_put hd, (mout_flags _ _ _ _).2.2.2.2.2 ⟨hl, hk⟩⟩
  have hrj : ∀ (j : Nat) d, p.insts[j]? = some d → d.isReachableJumpdest p.hasDyn = true →
      mkills p.hasDyn j (mstate p.hasDyn p.insts j) d = false := fun j d hd h => by
    unfold mkills
    cases mstate p.hasDyn p.insts j with
    | none => rfl
    | some st => simp [h]
  refine ⟨?_, fun i d' t hd' ht => ?_, fun i d' hd' hj hs hl j e' he' hjd => ?_, fun i d' e' hd' he' hl hx => ?_,
    fun i d' hd' h => ?_, fun i d' hd' h1 h2 => ?_, fun i d' hd' hm t ht => ?_, fun j e' he' hj => ?_,
    fun j e' he' ho => ?_⟩
  · obtain ⟨d, hd, hl⟩ := S.zero
    exact hnk 0 d hd hl rfl
  · obtain ⟨d, hd, rfl⟩ := mark_get hd'
    obtain ⟨f1, f2, f3, f4, f5⟩ := mout_flags p.hasDyn i (mstate p.hasDyn p.insts i) d
    have hlive : (mout p.hasDyn i (mstate p.hasDyn p.insts i) d).flags.deadCode = false := by
      cases hx : (mout p.hasDyn i (mstate p.hasDyn p.insts i) d).flags.deadCode with
      | false => rfl
      | true => unfold Prog.targetsOf at ht; rw [hx] at ht; simp at ht
    obtain ⟨hl, hk⟩ := f5.1 hlive
    rw [targetsOf_congr (p := p) (p' := p.mark) rfl f1 (by rw [hlive, hl])] at ht
    obtain ⟨e, he, hel⟩ := S.tgt i d t hd ht
    by_cases hjd : e.isJumpdest = true
    · refine hnk t e he hel (hrj t e he ?_)
      unfold InstData.isReachableJumpdest
      rw [hjd, (R.reach t e he hjd).2 ⟨i, d, hd, ht⟩]
      simp
    · -- the next instruction
      have ht' : Single d = true ∧ d.data = t := by
        unfold Prog.targetsOf at ht
        split at ht
        · simp at ht
        · rename_i h0
          simp only [Bool.or_eq_true, Bool.not_eq_true', not_or, Bool.not_eq_false, Bool.not_eq_true] at h0
          split at ht
          · rename_i hm
            obtain ⟨e', g1, g2⟩ := S.mdest i d hd hm t ht
            rw [he] at g1; cases g1
            exact absurd g2 hjd
          · rename_i hm
            simp only [Bool.not_eq_true] at hm
            rw [List.mem_singleton] at ht
            refine ⟨?_, ht.symm⟩
            unfold Single
            rw [h0.1.1, h0.1.2, hm]; rfl
      obtain ⟨hsg, hdt⟩ := ht'
      have hti : t = i + 1 := by
        rcases S.dest i d hd hsg with h | ⟨e', g1, g2⟩
        · omega
        · rw [hdt, he] at g1; cases g1
          exact absurd g2 hjd
      refine hnk t e he hel ?_
      have hnone : mstate p.hasDyn p.insts (i + 1) = none := by
        rw [mstate_succ hd]
        cases hki : mstate p.hasDyn p.insts i with
        | none =>
          unfold mnext
          dsimp only
          split
          · rfl
          · rw [if_pos]
            unfold Single at hsg
            simp only [Bool.and_eq_true] at hsg
            exact ⟨hsg.1.1, by show d.data = i + 1; omega⟩
        | some st =>
          rw [hki] at hk
          unfold mnext
          dsimp only
          rw [if_pos (mkills_some.1 hk)]
      rw [hti, hnone]; rfl
  · obtain ⟨d, hd, rfl⟩ := mark_get hd'
    obtain ⟨f1, f2, f3, f4, f5⟩ := mout_flags p.hasDyn i (mstate p.hasDyn p.insts i) d
    obtain ⟨hl, hk⟩ := f5.1 hl
    obtain ⟨e, he, rfl⟩ := mark_get he'
    obtain ⟨g1, g2, g3, g4, g5⟩ := mout_flags p.hasDyn j (mstate p.hasDyn p.insts j) e
    rw [jumpdest_congr g1] at hjd
    have hdyn : p.hasDyn = true := by
      rw [R.dyn]
      exact hasDyn_iff.2 ⟨i, d, hd, f1.isJump ▸ hj, f1.sta ▸ hs, hl⟩
    refine g5.2 ⟨S.dynl i d hd (f1.isJump ▸ hj) (f1.sta ▸ hs) hl j e he hjd, hrj j e he ?_⟩
    unfold InstData.isReachableJumpdest
    rw [hjd, hdyn]; rfl
  · obtain ⟨d, hd, rfl⟩ := mark_get hd'
    obtain ⟨f1, f2, f3, f4, f5⟩ := mout_flags p.hasDyn i (mstate p.hasDyn p.insts i) d
    obtain ⟨hl, hk⟩ := f5.1 hl
    obtain ⟨e, he, rfl⟩ := mark_get he'
    obtain ⟨g1, g2, g3, g4, g5⟩ := mout_flags p.hasDyn (i + 1) (mstate p.hasDyn p.insts (i + 1)) e
    rw [falls_congr f1 f3 f4]
    cases hel : e.flags.deadCode with
    | true => exact S.edge i d e hd he hl hel
    | false =>
      have hke : mkills p.hasDyn (i + 1) (mstate p.hasDyn p.insts (i + 1)) e = true := by
        cases hke : mkills p.hasDyn (i + 1) (mstate p.hasDyn p.insts (i + 1)) e with
        | true => rfl
        | false => rw [g5.2 ⟨hel, hke⟩] at hx; cases hx
      rw [mstate_succ hd] at hke
      cases hki : mstate p.hasDyn p.insts i with
      | none =>
        rw [hki] at hke
        cases hf : d.canFallThrough with
        | false => rfl
        | true =>
          exfalso
          unfold mnext at hke
          dsimp only at hke
          rw [if_pos hf] at hke
          cases hke
      | some st =>
        exfalso
        rw [hki] at hk hke
        unfold mnext at hke
        dsimp only at hke
        rw [if_pos (mkills_some.1 hk)] at hke
        cases hke
  · obtain ⟨d, hd, rfl⟩ := mark_get hd'
    obtain ⟨f1, _⟩ := mout_flags p.hasDyn i (mstate p.hasDyn p.insts i) d
    rw [single_congr f1] at h
    rw [f1.dat]
    rcases S.dest i d hd h with h | ⟨e, h1, h2⟩
    · exact .inl h
    · exact .inr ⟨_, mark_put h1, by rw [jumpdest_congr (mout_flags _ _ _ _).1]; exact h2⟩
  · obtain ⟨d, hd, rfl⟩ := mark_get hd'
    obtain ⟨f1, _⟩ := mout_flags p.hasDyn i (mstate p.hasDyn p.insts i) d
    rw [single_congr f1] at h2
    rw [f1.isJump] at h1
    rw [f1.dat]
    exact S.stale i d hd h1 h2
  · obtain ⟨d, hd, rfl⟩ := mark_get hd'
    obtain ⟨f1, _⟩ := mout_flags p.hasDyn i (mstate p.hasDyn p.insts i) d
    rw [f1.mul] at hm
    obtain ⟨e, h1, h2⟩ := S.mdest i d hd hm t ht
    exact ⟨_, mark_put h1, by rw [jumpdest_congr (mout_flags _ _ _ _).1]; exact h2⟩
  · obtain ⟨e, he, rfl⟩ := mark_get he'
    obtain ⟨g1, g2, g3, g4, g5⟩ := mout_flags p.hasDyn j (mstate p.hasDyn p.insts j) e
    rw [jumpdest_congr g1, g1.isJump] at hj
    rw [g3, g4]
    exact S.on j e he hj
  · obtain ⟨e, he, rfl⟩ := mark_get he'
    obtain ⟨g1, _⟩ := mout_flags p.hasDyn j (mstate p.hasDyn p.insts j) e
    show j + 1 < (markLoop p.hasDyn 0 none p.insts).length
    rw [(evolves_markLoop p.hasDyn p.insts 0 none).len]
    exact S.more j e he (g1.op ▸ ho)

/-- A round that marks no jump leaves only entered instructions, and the flags stay up to date. -/
theorem Shut.mark_done {p : Prog} (S : Shut p) (R : CfgFresh p) (hno : markedJump p.insts p.mark.insts = false) :
    CfgFresh p.mark ∧ Anch p.mark := by
  have hjump : ∀ (i : Nat) d, p.insts[i]? = some d → d.isJump = true →
      (mout p.hasDyn i (mstate p.hasDyn p.insts i) d).flags.deadCode = d.flags.deadCode := by
    have hgen : ∀ (l l' : List InstData), markedJump l l' = false → ∀ (i : Nat) d d', l[i]? = some d → l'[i]? = some d' →
        d.isJump = true → d.flags.deadCode = false → d'.flags.deadCode = false := by
      intro l
      induction l with
      | nil => intro l' _ i d d' h; simp at h
      | cons a l ih =>
        intro l' h i d d' h1 h2 hj hl
        cases l' with
        | nil => simp at h2
        | cons b l' =>
          rw [markedJump, Bool.or_eq_false_iff] at h
          cases i with
          | zero =>
            simp only [List.getElem?_cons_zero, Option.some.injEq] at h1 h2
            subst h1; subst h2
            have := h.1
            rw [hl, hj] at this
            simpa using this
          | succ i => exact ih l' h.2 i d d' (by simpa using h1) (by simpa using h2) hj hl
    intro i d hd hj
    cases hx : d.flags.deadCode with
    | false => exact hgen _ _ hno i d _ hd (mark_put hd) hj hx
    | true =>
      unfold mout
      split
      · rfl
      · exact hx
  have htg : ∀ (i : Nat) d, p.insts[i]? = some d →
      p.mark.targetsOf i (mout p.hasDyn i (mstate p.hasDyn p.insts i) d) = p.targetsOf i d := by
    intro i d hd
    by_cases hj : d.isJump = true
    · exact targetsOf_congr rfl (mout_flags _ _ _ _).1 (hjump i d hd hj)
    · have h1 : d.isStaticJump = false := by unfold InstData.isStaticJump; simp [hj]
      have h2 : (mout p.hasDyn i (mstate p.hasDyn p.insts i) d).isStaticJump = false := by
        rw [static_congr (mout_flags _ _ _ _).1]; exact h1
      unfold Prog.targetsOf
      rw [h1, h2]; rfl
  have hto : ∀ t, JumpsTo p.mark t ↔ JumpsTo p t := by
    intro t
    constructor
    · rintro ⟨i, d', hd', ht⟩
      obtain ⟨d, hd, rfl⟩ := mark_get hd'
      rw [htg i d hd] at ht
      exact ⟨i, d, hd, ht⟩
    · rintro ⟨i, d, hd, ht⟩
      exact ⟨i, _, mark_put hd, by rw [htg i d hd]; exact ht⟩
  have hRJ : ∀ (j : Nat) d, p.insts[j]? = some d → d.isReachableJumpdest p.hasDyn = true → RJ p.mark j := by
    intro j d hd h
    refine ⟨_, mark_put hd, ?_⟩
    obtain ⟨g1, g2, _⟩ := mout_flags p.hasDyn j (mstate p.hasDyn p.insts j) d
    unfold InstData.isReachableJumpdest at h ⊢
    rw [jumpdest_congr g1, g2]
    exact h
  refine ⟨⟨?_, fun j d' hd' hj => ?_⟩, fun j h0 hlive => ?_⟩
  · show p.hasDyn = p.mark.recomputeHasDyn.hasDyn
    rw [R.dyn, Bool.eq_iff_iff, hasDyn_iff, hasDyn_iff]
    constructor
    · rintro ⟨i, d, hd, h1, h2, h3⟩
      obtain ⟨f1, _⟩ := mout_flags p.hasDyn i (mstate p.hasDyn p.insts i) d
      exact ⟨i, _, mark_put hd, f1.isJump.trans h1, f1.sta.trans h2, (hjump i d hd h1).trans h3⟩
    · rintro ⟨i, d', hd', h1, h2, h3⟩
      obtain ⟨d, hd, rfl⟩ := mark_get hd'
      obtain ⟨f1, f2, f3, f4, f5⟩ := mout_flags p.hasDyn i (mstate p.hasDyn p.insts i) d
      exact ⟨i, d, hd, f1.isJump ▸ h1, f1.sta ▸ h2, (f5.1 h3).1⟩
  · obtain ⟨d, hd, rfl⟩ := mark_get hd'
    obtain ⟨f1, f2, _⟩ := mout_flags p.hasDyn j (mstate p.hasDyn p.insts j) d
    rw [jumpdest_congr f1] at hj
    rw [f2, R.reach j d hd hj, hto]
  · obtain ⟨d', hd', hl⟩ := hlive
    obtain ⟨d, hd, rfl⟩ := mark_get hd'
    obtain ⟨f1, f2, f3, f4, f5⟩ := mout_flags p.hasDyn j (mstate p.hasDyn p.insts j) d
    obtain ⟨hl, hk⟩ := f5.1 hl
    have M := S.markAt R j
    cases hs : mstate p.hasDyn p.insts j with
    | none =>
      right
      have hlen := (List.getElem?_eq_some_iff.1 hd).1
      obtain ⟨e, h1, h2, h3, h4⟩ := M.enter h0 (by omega) hs
      obtain ⟨g1, g2, g3, g4, g5⟩ := mout_flags p.hasDyn (j - 1) (mstate p.hasDyn p.insts (j - 1)) e
      refine ⟨_, mark_put h1, g5.2 ⟨h2, h3⟩, ?_⟩
      rw [falls_congr g1 g3 g4, single_congr g1, g1.dat]
      exact h4
    | some st =>
      left
      rw [hs] at hk
      unfold mkills at hk
      dsimp only at hk
      simp only [Bool.not_eq_false', Bool.or_eq_true, decide_eq_true_eq] at hk
      rcases hk with hk | hk
      · obtain ⟨⟨e, he, hjd⟩, i, x, hx, ht, _⟩ := M.stop j (by rw [hs, hk])
        rw [hd] at he; cases he
        refine hRJ j d hd ?_
        unfold InstData.isReachableJumpdest
        rw [hjd, (R.reach j d hd hjd).2 ⟨i, x, hx, ht⟩]
        simp
      · exact hRJ j d hd hk

end Verif
