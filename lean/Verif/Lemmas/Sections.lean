import Verif.Model.Sections
import Verif.Spec.Sections
/-! # Helper lemmas for sections -/

namespace Verif

theorem StackAcc.mono (l : List (Nat × Nat)) (a : StackAcc) :
    a.inputs ≤ (l.foldl (fun a p => a.process p.1 p.2) a).inputs ∧
    a.maxGrowth ≤ (l.foldl (fun a p => a.process p.1 p.2) a).maxGrowth := by
  induction l generalizing a with
  | nil => simp
  | cons p l ih =>
    have := ih (a.process p.1 p.2)
    simp only [List.foldl_cons]
    simp only [StackAcc.process] at this ⊢
    omega

theorem StackAcc.fold_iff (l : List (Nat × Nat)) (a : StackAcc) (h h' : Nat)
    (hh : (h' : Int) = h + a.diff) :
    ((h : Int) < (l.foldl (fun a p => a.process p.1 p.2) a).inputs ∨
      1024 < (h : Int) + (l.foldl (fun a p => a.process p.1 p.2) a).maxGrowth) ↔
    ((h : Int) < a.inputs ∨ 1024 < (h : Int) + a.maxGrowth ∨ Spec.stackFails h' l) := by
  induction l generalizing a h' with
  | nil => simp [Spec.stackFails]
  | cons p l ih =>
    obtain ⟨inp, out⟩ := p
    simp only [List.foldl_cons, Spec.stackFails]
    by_cases hu : h' < inp
    · have := StackAcc.mono l (a.process inp out)
      have h1 : (h : Int) < (a.process inp out).inputs := by
        simp only [StackAcc.process]; omega
      constructor
      · intro _; exact Or.inr (Or.inr (Or.inl hu))
      · intro _; left; omega
    · rw [ih (a.process inp out) (h' - inp + out) (by simp only [StackAcc.process]; omega)]
      generalize Spec.stackFails (h' - inp + out) l = P
      simp only [StackAcc.process]
      have e1 : (h : Int) < max a.inputs (inp - a.diff) ↔ (h : Int) < a.inputs := by omega
      have e2 : 1024 < (h : Int) + max a.maxGrowth (a.diff + ((out : Int) - inp)) ↔
        (1024 < (h : Int) + a.maxGrowth ∨ 1024 < h' - inp + out) := by omega
      rw [e1, e2]
      constructor <;> intro h <;> grind

theorem checkStackBounds_isSome (sec : StackSection) (h : Nat) (hg : 0 ≤ sec.maxGrowth)
    (hh : h ≤ 1024) :
    (checkStackBounds sec h).isSome = true ↔ (h < sec.inputs ∨ 1024 < (h : Int) + sec.maxGrowth) := by
  unfold checkStackBounds
  have ho : (if sec.maxGrowth > (STACK_CAP : Int) then true
      else decide ((STACK_CAP : Int) - sec.maxGrowth < (h : Int))) =
      decide (1024 < (h : Int) + sec.maxGrowth) := by
    have : (STACK_CAP : Int) = 1024 := rfl
    split <;> simp only [true_eq_decide_iff, decide_eq_decide] <;> omega
  dsimp only
  rw [ho]
  by_cases c1 : 0 < sec.inputs <;> by_cases c2 : 0 < sec.maxGrowth <;>
  by_cases c3 : h < sec.inputs <;> by_cases c4 : 1024 < (h : Int) + sec.maxGrowth <;>
    simp [c1, c2, c3, c4] <;> omega

theorem check_isSome (a : StackAcc) (h : Nat) (hi : 0 ≤ a.inputs) (hg : 0 ≤ a.maxGrowth)
    (hh : h ≤ 1024) :
    (checkStackBounds a.section h).isSome = true ↔
    ((h : Int) < a.inputs ∨ 1024 < (h : Int) + a.maxGrowth) := by
  rw [checkStackBounds_isSome _ _ ?_ hh]
  · simp only [StackAcc.section]
    split <;> split <;> omega
  · simp only [StackAcc.section]
    split <;> omega

theorem chargeEach_sum (l : List (Nat × Nat)) (g : Nat) :
    Spec.chargeEach g l =
      if g < (l.map fun p => p.1 + p.2).sum then none
      else some (g - (l.map fun p => p.1 + p.2).sum) := by
  induction l generalizing g with
  | nil => simp [Spec.chargeEach]
  | cons p l ih =>
    obtain ⟨a, b⟩ := p
    simp only [Spec.chargeEach, List.map_cons, List.sum_cons]
    rw [ih]
    grind

/-! ## The section analysis against the specification -/

section
variable (insts : List InstData) (spec : SpecId) (dyn : Bool) (extra : Nat → Option Nat)

/-- The specification's sections of the instructions `rest`, numbered from `i`. -/
def specSecs (fresh : Bool) (rest : List InstData) (i : Nat) :
    List (Option (List (InstData × Nat))) :=
  Spec.sections (fun p => p.1.flags.deadCode) (fun p => p.1.isReachableJumpdest dyn)
    (fun p => p.1.endsSection spec) fresh (rest.zipIdx i)

def specRest (rest : List InstData) (i : Nat) : List (InstData × Nat) :=
  Spec.restOfSection (fun p => p.1.flags.deadCode) (fun p => p.1.isReachableJumpdest dyn)
    (fun p => p.1.endsSection spec) (rest.zipIdx i)

def stkFold (a : StackAcc) (l : List (InstData × Nat)) : StackAcc :=
  l.foldl (fun a p => a.process p.1.stackIo.1 p.1.stackIo.2) a

def instGas (p : InstData × Nat) : Nat := p.1.baseGas + (extra p.2).getD 0

def gasFold (l : List (InstData × Nat)) : Nat := (l.map (instGas extra)).sum

def stkVal (x : Option (Option (List (InstData × Nat)))) : Option StackSection :=
  x.join.map fun l => (stkFold {} l).section

def gasVal (x : Option (Option (List (InstData × Nat)))) : Nat :=
  match x.join with
  | none => 0
  | some l => gasSection (gasFold extra l)

def finalSecs (rest : List InstData) (i : Nat) (s : SecState) : SecState :=
  (sectionsLoop insts spec dyn extra rest i s).save insts

theorem firstLive_none_of {insts : List InstData} {start i : Nat}
    (h : ∀ k d, insts[k]? = some d → start ≤ k → k < i → d.flags.deadCode = true)
    (hi : insts.length ≤ i) : firstLive insts start = none := by
  simp only [firstLive, Option.map_eq_none_iff, List.findIdx?_eq_none_iff]
  intro d hd
  obtain ⟨k, hk⟩ := List.mem_iff_getElem?.1 hd
  rw [List.getElem?_drop] at hk
  have hlt : start + k < insts.length := by
    rcases Nat.lt_or_ge (start + k) insts.length with h | h
    · exact h
    · rw [List.getElem?_eq_none h] at hk; simp at hk
  simp [h _ _ hk (by omega) (by omega)]

theorem firstLive_some_of {insts : List InstData} {start i : Nat} {d : InstData}
    (h : ∀ k d, insts[k]? = some d → start ≤ k → k < i → d.flags.deadCode = true)
    (hs : start ≤ i) (hd : insts[i]? = some d) (hl : d.flags.deadCode = false) :
    firstLive insts start = some i := by
  simp only [firstLive, Option.map_eq_some_iff]
  refine ⟨i - start, ?_, by omega⟩
  rw [List.findIdx?_eq_some_iff_getElem]
  obtain ⟨hlt, he⟩ := List.getElem?_eq_some_iff.1 hd
  refine ⟨by rw [List.length_drop]; omega, ?_, ?_⟩
  · simp only [List.getElem_drop, show start + (i - start) = i by omega, he, hl]; rfl
  · intro j hj
    have hj2 : start + j < insts.length := by omega
    have := h (start + j) insts[start + j] (List.getElem?_eq_getElem hj2) (by omega) (by omega)
    simp only [List.getElem_drop, this]; simp

theorem save_some {s : SecState} {h : Nat} (hf : firstLive insts s.start = some h)
    (h0 : s.gasOut h = 0) :
    (∀ j, (s.save insts).gasOut j = if j = h then gasSection s.gas else s.gasOut j) ∧
    (∀ j, (s.save insts).stkOut j = if j = h then some s.stk.section else s.stkOut j) ∧
    (s.save insts).start = s.start := by
  simp only [SecState.save, hf]
  refine ⟨?_, fun _ => trivial, trivial⟩
  intro j
  by_cases hz : gasSection s.gas = 0
  · rw [if_pos hz]; split
    · rename_i e; subst e; rw [h0, hz]
    · rfl
  · rw [if_neg hz]

theorem specSecs_cons (fresh : Bool) (d : InstData) (rest : List InstData) (i : Nat) :
    specSecs spec dyn fresh (d :: rest) i =
      if d.flags.deadCode then none :: specSecs spec dyn fresh rest (i + 1)
      else (if fresh || d.isReachableJumpdest dyn then
          some ((d, i) :: if d.endsSection spec then [] else specRest spec dyn rest (i + 1)) else none) ::
        specSecs spec dyn (d.endsSection spec) rest (i + 1) := by
  simp [specSecs, specRest, List.zipIdx_cons, Spec.sections]

theorem specRest_cons (d : InstData) (rest : List InstData) (i : Nat) :
    specRest spec dyn (d :: rest) i =
      if d.flags.deadCode then specRest spec dyn rest (i + 1)
      else if d.isReachableJumpdest dyn then []
      else (d, i) :: if d.endsSection spec then [] else specRest spec dyn rest (i + 1) := by
  simp [specRest, List.zipIdx_cons, Spec.restOfSection]

theorem specSecs_cons_live (fresh : Bool) {d : InstData} (hd : d.flags.deadCode = false)
    (rest : List InstData) (i : Nat) :
    specSecs spec dyn fresh (d :: rest) i =
      (if fresh || d.isReachableJumpdest dyn then
          some ((d, i) :: if d.endsSection spec then [] else specRest spec dyn rest (i + 1)) else none) ::
        specSecs spec dyn (d.endsSection spec) rest (i + 1) := by
  rw [specSecs_cons, hd]; rfl

theorem specRest_cons_live {d : InstData} (hd : d.flags.deadCode = false)
    (rest : List InstData) (i : Nat) :
    specRest spec dyn (d :: rest) i =
      if d.isReachableJumpdest dyn then []
      else (d, i) :: if d.endsSection spec then [] else specRest spec dyn rest (i + 1) := by
  rw [specRest_cons, hd]; rfl

/-- Fresh state: nothing accumulated since `start`. -/
structure Fresh (i : Nat) (s : SecState) : Prop where
  gas : s.gas = 0
  stk : s.stk = {}
  le : s.start ≤ i
  dead : ∀ k d, insts[k]? = some d → s.start ≤ k → k < i → d.flags.deadCode = true
  gasOut : ∀ j, i ≤ j → s.gasOut j = 0
  stkOut : ∀ j, i ≤ j → s.stkOut j = none

/-- A section with head `h` is being accumulated. -/
structure Pending (i h : Nat) (s : SecState) : Prop where
  head : firstLive insts s.start = some h
  lt : h < i
  gas0 : s.gasOut h = 0
  gasOut : ∀ j, i ≤ j → s.gasOut j = 0
  stkOut : ∀ j, i ≤ j → s.stkOut j = none

theorem process_noEntry (i : Nat) (d : InstData) (s : SecState)
    (he : d.isReachableJumpdest dyn = false) :
    s.process insts spec dyn extra i d =
      if d.endsSection spec then
        SecState.saveReset insts { s with
          stk := s.stk.process d.stackIo.1 d.stackIo.2
          gas := s.gas + d.baseGas + (extra i).getD 0 } (i + 1)
      else { s with
          stk := s.stk.process d.stackIo.1 d.stackIo.2
          gas := s.gas + d.baseGas + (extra i).getD 0 } := by
  simp [SecState.process, he]

theorem process_entry (i : Nat) (d : InstData) (s : SecState)
    (he : d.isReachableJumpdest dyn = true) :
    s.process insts spec dyn extra i d =
      if d.endsSection spec then
        SecState.saveReset insts { s.saveReset insts i with
          stk := (s.saveReset insts i).stk.process d.stackIo.1 d.stackIo.2
          gas := (s.saveReset insts i).gas + d.baseGas + (extra i).getD 0 } (i + 1)
      else { s.saveReset insts i with
          stk := (s.saveReset insts i).stk.process d.stackIo.1 d.stackIo.2
          gas := (s.saveReset insts i).gas + d.baseGas + (extra i).getD 0 } := by
  simp [SecState.process, he]

theorem gasVal_none : gasVal extra none = 0 := rfl

/-- Both halves of the induction statement, at index `i`. -/
def FinalSpec (rest : List InstData) (i : Nat) : Prop :=
    (∀ s, Fresh insts i s → ∀ j,
      (finalSecs insts spec dyn extra rest i s).gasOut j =
        (if j < i then s.gasOut j else gasVal extra (specSecs spec dyn true rest i)[j - i]?) ∧
      (finalSecs insts spec dyn extra rest i s).stkOut j =
        (if j < i then s.stkOut j else stkVal (specSecs spec dyn true rest i)[j - i]?)) ∧
    (∀ s h, Pending insts i h s → ∀ j,
      (finalSecs insts spec dyn extra rest i s).gasOut j =
        (if j = h then gasSection (s.gas + gasFold extra (specRest spec dyn rest i))
          else if j < i then s.gasOut j else gasVal extra (specSecs spec dyn false rest i)[j - i]?) ∧
      (finalSecs insts spec dyn extra rest i s).stkOut j =
        (if j = h then some (stkFold s.stk (specRest spec dyn rest i)).section
          else if j < i then s.stkOut j else stkVal (specSecs spec dyn false rest i)[j - i]?))

theorem finish_step {rest : List InstData} {i : Nat} {d : InstData} {s1 : SecState} {h : Nat}
    (ih : FinalSpec insts spec dyn extra rest (i + 1))
    (hf : firstLive insts s1.start = some h) (hle : h ≤ i) (h0 : s1.gasOut h = 0)
    (hg : ∀ j, i + 1 ≤ j → s1.gasOut j = 0) (hst : ∀ j, i + 1 ≤ j → s1.stkOut j = none)
    (s2 : SecState)
    (hs2 : s2 = { s1 with
      stk := s1.stk.process d.stackIo.1 d.stackIo.2
      gas := s1.gas + d.baseGas + (extra i).getD 0 }) (j : Nat) :
    (finalSecs insts spec dyn extra rest (i + 1)
      (if d.endsSection spec then s2.saveReset insts (i + 1) else s2)).gasOut j =
      (if j = h then gasSection (s1.gas + gasFold extra
          ((d, i) :: if d.endsSection spec then [] else specRest spec dyn rest (i + 1)))
        else if j < i + 1 then s1.gasOut j
        else gasVal extra (specSecs spec dyn (d.endsSection spec) rest (i + 1))[j - (i + 1)]?) ∧
    (finalSecs insts spec dyn extra rest (i + 1)
      (if d.endsSection spec then s2.saveReset insts (i + 1) else s2)).stkOut j =
      (if j = h then some (stkFold s1.stk
          ((d, i) :: if d.endsSection spec then [] else specRest spec dyn rest (i + 1))).section
        else if j < i + 1 then s1.stkOut j
        else stkVal (specSecs spec dyn (d.endsSection spec) rest (i + 1))[j - (i + 1)]?) := by
  have hf2 : firstLive insts s2.start = some h := by rw [hs2]; exact hf
  have h02 : s2.gasOut h = 0 := by rw [hs2]; exact h0
  obtain ⟨ihF, ihP⟩ := ih
  cases hends : d.endsSection spec
  · simp only [if_false, Bool.false_eq_true]
    have hp : Pending insts (i + 1) h s2 :=
      ⟨hf2, by omega, h02, by rw [hs2]; exact hg, by rw [hs2]; exact hst⟩
    obtain ⟨a, b⟩ := ihP s2 h hp j
    rw [a, b, hs2]
    simp only [gasFold, stkFold, List.map_cons, List.sum_cons, List.foldl_cons, instGas]
    simp only [Nat.add_assoc, and_self]
  · simp only [if_true]
    obtain ⟨a, b, -⟩ := save_some insts hf2 h02
    have hp : Fresh insts (i + 1) (s2.saveReset insts (i + 1)) := by
      refine ⟨rfl, rfl, Nat.le_refl _, ?_, ?_, ?_⟩
      · intro k d _ h1 h2; simp only [SecState.saveReset] at h1; omega
      · intro j hj
        simp only [SecState.saveReset, a, if_neg (show ¬ j = h by omega)]
        rw [hs2]; exact hg j hj
      · intro j hj
        simp only [SecState.saveReset, b, if_neg (show ¬ j = h by omega)]
        rw [hs2]; exact hst j hj
    obtain ⟨a', b'⟩ := ihF _ hp j
    rw [a', b']
    simp only [SecState.saveReset, a, b]
    rw [hs2]
    simp only [gasFold, stkFold, List.map_cons, List.map_nil,
      List.sum_cons, List.sum_nil, List.foldl_cons, List.foldl_nil, instGas, Nat.add_zero,
      Nat.add_assoc]
    constructor
    · by_cases e : j = h
      · simp only [e, if_true, if_pos (show h < i + 1 by omega)]
      · simp only [e, if_false]
    · by_cases e : j = h
      · simp only [e, if_true, if_pos (show h < i + 1 by omega)]
      · simp only [e, if_false]

theorem idx_cons {α : Type} (x : α) (l : List α) {i j : Nat} (h : ¬ j < i + 1) :
    (x :: l)[j - i]? = l[j - (i + 1)]? := by
  rw [show j - i = (j - (i + 1)) + 1 by omega, List.getElem?_cons_succ]

theorem finalSecs_cons_dead {d : InstData} (h : d.flags.deadCode = true) (rest : List InstData)
    (i : Nat) (s : SecState) : finalSecs insts spec dyn extra (d :: rest) i s =
      finalSecs insts spec dyn extra rest (i + 1) s := by
  simp [finalSecs, sectionsLoop, h]

theorem finalSecs_cons_live {d : InstData} (h : d.flags.deadCode = false) (rest : List InstData)
    (i : Nat) (s : SecState) : finalSecs insts spec dyn extra (d :: rest) i s =
      finalSecs insts spec dyn extra rest (i + 1) (s.process insts spec dyn extra i d) := by
  simp [finalSecs, sectionsLoop, h]

theorem finalSecs_spec (rest : List InstData) :
    ∀ (i : Nat), insts.drop i = rest → FinalSpec insts spec dyn extra rest i := by
  induction rest with
  | nil =>
    intro i hi
    have hlen : insts.length ≤ i := by simpa using hi
    constructor
    · intro s hs j
      have := firstLive_none_of hs.dead hlen
      simp only [finalSecs, sectionsLoop, SecState.save, this, specSecs, Spec.sections,
        List.zipIdx_nil, List.getElem?_nil, stkVal, gasVal, Option.join_none, Option.map_none]
      constructor <;> split
      · rfl
      · exact hs.gasOut _ (by omega)
      · rfl
      · exact hs.stkOut _ (by omega)
    · intro s h hs j
      obtain ⟨a, b, -⟩ := save_some insts hs.head hs.gas0
      simp only [finalSecs, sectionsLoop, a, b, specSecs, specRest, Spec.sections,
        Spec.restOfSection, List.zipIdx_nil, List.getElem?_nil, stkVal, gasVal, Option.join_none,
        Option.map_none, gasFold, stkFold, List.map_nil, List.sum_nil, List.foldl_nil, Nat.add_zero]
      constructor <;> split <;> try rfl
      · split
        · rfl
        · exact hs.gasOut _ (by omega)
      · split
        · rfl
        · exact hs.stkOut _ (by omega)
  | cons d rest ih =>
    intro i hi
    have hd : insts[i]? = some d := by
      have := congrArg (·[0]?) hi
      simpa using this
    have hi' : insts.drop (i + 1) = rest := by
      have := congrArg List.tail hi
      simpa using this
    have ih := ih (i + 1) hi'
    by_cases hdead : d.flags.deadCode = true
    · obtain ⟨ihF, ihP⟩ := ih
      constructor
      · intro s hs j
        have hp : Fresh insts (i + 1) s := by
          refine ⟨hs.gas, hs.stk, by have := hs.le; omega, ?_, fun j hj => hs.gasOut j (by omega),
            fun j hj => hs.stkOut j (by omega)⟩
          intro k d' hk h1 h2
          by_cases e : k = i
          · subst e; rw [hd] at hk; cases hk; exact hdead
          · exact hs.dead k d' hk h1 (by omega)
        rw [finalSecs_cons_dead _ _ _ _ hdead, specSecs_cons, if_pos hdead]
        obtain ⟨a, b⟩ := ihF s hp j
        rw [a, b]
        by_cases h1 : j < i
        · simp only [h1, if_true, show j < i + 1 by omega, and_self]
        · by_cases h2 : j < i + 1
          · obtain rfl : j = i := by omega
            simp only [h2, if_true, Nat.lt_irrefl, if_false, Nat.sub_self, List.getElem?_cons_zero]
            exact ⟨hs.gasOut _ (Nat.le_refl _), hs.stkOut _ (Nat.le_refl _)⟩
          · simp only [h1, h2, if_false, idx_cons _ _ h2, and_self]
      · intro s h hs j
        have hp : Pending insts (i + 1) h s :=
          ⟨hs.head, by have := hs.lt; omega, hs.gas0, fun j hj => hs.gasOut j (by omega),
            fun j hj => hs.stkOut j (by omega)⟩
        rw [finalSecs_cons_dead _ _ _ _ hdead, specSecs_cons, if_pos hdead, specRest_cons,
          if_pos hdead]
        obtain ⟨a, b⟩ := ihP s h hp j
        rw [a, b]
        by_cases h0 : j = h
        · simp only [h0, if_true, and_self]
        by_cases h1 : j < i
        · simp only [h0, h1, if_true, show j < i + 1 by omega, and_self]
        · by_cases h2 : j < i + 1
          · obtain rfl : j = i := by omega
            simp only [h0, h2, if_true, Nat.lt_irrefl, if_false, Nat.sub_self, List.getElem?_cons_zero]
            exact ⟨hs.gasOut _ (Nat.le_refl _), hs.stkOut _ (Nat.le_refl _)⟩
          · simp only [h0, h1, h2, if_false, idx_cons _ _ h2, and_self]
    · replace hdead : d.flags.deadCode = false := by simpa using hdead
      constructor
      · intro s hs j
        have hl := firstLive_some_of hs.dead hs.le hd hdead
        rw [finalSecs_cons_live _ _ _ _ hdead, specSecs_cons_live _ _ _ hdead]
        cases he : d.isReachableJumpdest dyn
        · rw [process_noEntry _ _ _ _ _ _ _ he]
          obtain ⟨a, b⟩ := finish_step insts spec dyn extra (d := d) ih hl (Nat.le_refl i)
            (hs.gasOut i (Nat.le_refl i)) (fun j hj => hs.gasOut j (by omega))
            (fun j hj => hs.stkOut j (by omega)) _ rfl j
          rw [a, b, hs.gas, hs.stk]
          simp only [Nat.zero_add, Bool.true_or, if_true]
          by_cases h1 : j < i
          · simp only [h1, if_true, show j < i + 1 by omega, show ¬ j = i by omega, if_false,
              and_self]
          · by_cases h2 : j < i + 1
            · obtain rfl : j = i := by omega
              simp only [if_true, Nat.lt_irrefl, if_false, Nat.sub_self,
                List.getElem?_cons_zero, gasVal, stkVal, Option.join_some, Option.map_some, and_self]
            · simp only [h1, h2, if_false, idx_cons _ _ h2, show ¬ j = i by omega, and_self]
        · rw [process_entry _ _ _ _ _ _ _ he]
          obtain ⟨sa, sb, -⟩ := save_some insts hl (hs.gasOut i (Nat.le_refl i))
          have hl2 : firstLive insts (s.saveReset insts i).start = some i :=
            firstLive_some_of (fun k d _ h1 h2 => by simp only [SecState.saveReset] at h1; omega)
              (Nat.le_refl i) hd hdead
          have hg : gasSection s.gas = 0 := by rw [hs.gas]; rfl
          obtain ⟨a, b⟩ := finish_step insts spec dyn extra (d := d) (s1 := s.saveReset insts i)
            ih hl2 (Nat.le_refl i)
            (by simp only [SecState.saveReset, sa, if_true, hg])
            (fun j hj => by
              simp only [SecState.saveReset, sa, show ¬ j = i by omega, if_false]
              exact hs.gasOut j (by omega))
            (fun j hj => by
              simp only [SecState.saveReset, sb, show ¬ j = i by omega, if_false]
              exact hs.stkOut j (by omega)) _ rfl j
          rw [a, b]
          simp only [SecState.saveReset, sa, sb, Nat.zero_add, Bool.true_or, if_true]
          by_cases h1 : j < i
          · simp only [h1, if_true, show j < i + 1 by omega, show ¬ j = i by omega, if_false,
              and_self]
          · by_cases h2 : j < i + 1
            · obtain rfl : j = i := by omega
              simp only [if_true, Nat.lt_irrefl, if_false, Nat.sub_self,
                List.getElem?_cons_zero, gasVal, stkVal, Option.join_some, Option.map_some, and_self]
            · simp only [h1, h2, if_false, idx_cons _ _ h2, show ¬ j = i by omega, and_self]
      · intro s h hs j
        have hlt := hs.lt
        rw [finalSecs_cons_live _ _ _ _ hdead, specSecs_cons_live _ _ _ hdead,
          specRest_cons_live _ _ hdead]
        cases he : d.isReachableJumpdest dyn
        · rw [process_noEntry _ _ _ _ _ _ _ he]
          obtain ⟨a, b⟩ := finish_step insts spec dyn extra (d := d) ih hs.head (by omega)
            hs.gas0 (fun j hj => hs.gasOut j (by omega))
            (fun j hj => hs.stkOut j (by omega)) _ rfl j
          rw [a, b]
          simp only [Bool.or_false, if_false, Bool.false_eq_true]
          by_cases h0 : j = h
          · simp only [h0, if_true, and_self]
          by_cases h1 : j < i
          · simp only [h0, h1, if_true, show j < i + 1 by omega, if_false, and_self]
          · by_cases h2 : j < i + 1
            · obtain rfl : j = i := by omega
              simp only [h0, h2, if_true, Nat.lt_irrefl, if_false, Nat.sub_self,
                List.getElem?_cons_zero]
              exact ⟨hs.gasOut _ (Nat.le_refl _), hs.stkOut _ (Nat.le_refl _)⟩
            · simp only [h0, h1, h2, if_false, idx_cons _ _ h2, and_self]
        · rw [process_entry _ _ _ _ _ _ _ he]
          obtain ⟨sa, sb, -⟩ := save_some insts hs.head hs.gas0
          have hl2 : firstLive insts (s.saveReset insts i).start = some i :=
            firstLive_some_of (fun k d _ h1 h2 => by simp only [SecState.saveReset] at h1; omega)
              (Nat.le_refl i) hd hdead
          obtain ⟨a, b⟩ := finish_step insts spec dyn extra (d := d) (s1 := s.saveReset insts i)
            ih hl2 (Nat.le_refl i)
            (by
              simp only [SecState.saveReset, sa, show ¬ i = h by omega, if_false]
              exact hs.gasOut i (Nat.le_refl i))
            (fun j hj => by
              simp only [SecState.saveReset, sa, show ¬ j = h by omega, if_false]
              exact hs.gasOut j (by omega))
            (fun j hj => by
              simp only [SecState.saveReset, sb, show ¬ j = h by omega, if_false]
              exact hs.stkOut j (by omega)) _ rfl j
          rw [a, b]
          simp only [SecState.saveReset, sa, sb, Nat.zero_add, Bool.or_true, if_true]
          by_cases h0 : j = h
          · subst h0
            simp only [if_true, show j < i + 1 by omega, show ¬ j = i by omega, if_false,
              gasFold, stkFold, List.map_nil, List.sum_nil, List.foldl_nil, Nat.add_zero, and_self]
          by_cases h1 : j < i
          · simp only [h0, h1, if_true, show j < i + 1 by omega, show ¬ j = i by omega, if_false,
              and_self]
          · by_cases h2 : j < i + 1
            · obtain rfl : j = i := by omega
              simp only [h0, if_true, Nat.lt_irrefl, if_false, Nat.sub_self,
                List.getElem?_cons_zero, gasVal, stkVal, Option.join_some, Option.map_some, and_self]
            · simp only [h0, h1, h2, if_false, idx_cons _ _ h2, show ¬ j = i by omega, and_self]

theorem constructSections_spec (j : Nat) :
    (constructSections insts spec dyn extra).gasOut j =
      gasVal extra (specSecs spec dyn true insts 0)[j]? ∧
    (constructSections insts spec dyn extra).stkOut j =
      stkVal (specSecs spec dyn true insts 0)[j]? := by
  have := (finalSecs_spec insts spec dyn extra insts 0 rfl).1 {} 
    ⟨rfl, rfl, Nat.le_refl _, fun _ _ _ _ h => absurd h (Nat.not_lt_zero _), fun _ _ => rfl,
      fun _ _ => rfl⟩ j
  simpa [finalSecs, constructSections] using this

end

theorem sections_flatten {α : Type} (dead entry ends : α → Bool) (l : List α) :
    ((Spec.sections dead entry ends true l).filterMap id).flatten = l.filter (fun d => !dead d) ∧
    Spec.restOfSection dead entry ends l ++
      ((Spec.sections dead entry ends false l).filterMap id).flatten = l.filter (fun d => !dead d) := by
  induction l with
  | nil => simp [Spec.sections, Spec.restOfSection]
  | cons d l ih =>
    obtain ⟨a, b⟩ := ih
    simp only [Spec.sections, Spec.restOfSection, List.filter_cons]
    cases dead d <;> cases ends d <;> cases entry d <;> simp_all

theorem restOfSection_props {α : Type} (dead entry ends : α → Bool) (l : List α) :
    (∀ p ∈ Spec.restOfSection dead entry ends l, entry p = false) ∧
    (∀ p ∈ (Spec.restOfSection dead entry ends l).dropLast, ends p = false) := by
  induction l with
  | nil => simp [Spec.restOfSection]
  | cons d l ih =>
    simp only [Spec.restOfSection]
    split
    · exact ih
    · split
      · simp
      · split
        · rename_i h1 h2 h3; simp; simpa using h2
        · rename_i h1 h2 h3
          refine ⟨?_, ?_⟩
          · intro p hp
            rcases List.mem_cons.1 hp with rfl | hp
            · simpa using h2
            · exact ih.1 p hp
          · intro p hp
            cases hr : Spec.restOfSection dead entry ends l with
            | nil => rw [hr] at hp; simp at hp
            | cons a b =>
              rw [hr, List.dropLast_cons_of_ne_nil (by simp)] at hp
              rcases List.mem_cons.1 hp with rfl | hp
              · simpa using h3
              · exact ih.2 p (by rw [hr]; exact hp)

theorem sections_props {α : Type} (dead entry ends : α → Bool) (l : List α) :
    ∀ fresh, ∀ S, some S ∈ Spec.sections dead entry ends fresh l →
      (∀ p ∈ S.tail, entry p = false) ∧ (∀ p ∈ S.dropLast, ends p = false) := by
  induction l with
  | nil => simp [Spec.sections]
  | cons d l ih =>
    intro fresh S hS
    simp only [Spec.sections] at hS
    split at hS
    · rcases List.mem_cons.1 hS with h | h
      · simp at h
      · exact ih _ _ h
    · rcases List.mem_cons.1 hS with h | h
      · split at h
        · rw [Option.some.injEq] at h
          subst h
          have hr := restOfSection_props dead entry ends l
          split
          · simp
          · rename_i h3
            refine ⟨hr.1, ?_⟩
            intro p hp
            cases hq : Spec.restOfSection dead entry ends l with
            | nil => rw [hq] at hp; simp at hp
            | cons a b =>
              rw [hq, List.dropLast_cons_of_ne_nil (by simp)] at hp
              rcases List.mem_cons.1 hp with rfl | hp
              · simpa using h3
              · exact hr.2 p (by rw [hq]; exact hp)
        · simp at h
      · exact ih _ _ h

end Verif
