import Verif.Lemmas.Interp
/-!
# Helper lemmas: interpreting blocks, gas accounting
-/

namespace Verif
open Spec

theorem interpInst_stack {code : Code} {limit i : Nat} {st : AIState} {d : InstData}
    {a : List AbsValue} (hl : d.flags.deadCode = false) :
    ∃ st0 : AIState, st0.gasUsed = st.gasUsed ∧ st0.log = st.log ∧
      (interpInst code limit st i d a).1 = (interpOp code limit st0 i d a).1 := by
  unfold interpInst
  rw [hl]
  simp only [Bool.false_eq_true, if_false]
  refine ⟨if 0 < d.stackIo.1 then
        { st with inputs := fun j => if j = i then (a.take d.stackIo.1).reverse else st.inputs j }
      else st, by split <;> rfl, by split <;> rfl, ?_⟩
  cases h : (interpOp code limit _ i d a).1 <;> rfl

theorem interpInst_sound {code : Code} {limit i : Nat} {st : AIState} {d : InstData}
    {a a' : List AbsValue} {c c' : List Word} (hl : d.flags.deadCode = false) (hio : StdIo d)
    (hstep : StackStep code.codeLen d.data d.opcode.toNat (code.imm i) d.stackIo.1 d.stackIo.2 c c')
    (ha : AdmitsStack a c) (h : (interpInst code limit st i d a).1 = some a') :
    AdmitsStack a' c' := by
  obtain ⟨st0, -, -, e⟩ := interpInst_stack (code := code) (limit := limit) (i := i) (st := st) (a := a) hl
  rw [e] at h
  exact interpOp_sound (st' := (interpOp code limit st0 i d a).2) hio hstep ha (Prod.ext h rfl)

theorem interpOp_snapshots (code : Code) (limit i : Nat) (st : AIState) (d : InstData)
    (a : List AbsValue) : (interpOp code limit st i d a).2.inputs = st.inputs ∧
      (interpOp code limit st i d a).2.outputs = st.outputs := by
  have ht : ∀ inp out, (tryFold code limit st d inp out a).2.inputs = st.inputs ∧
      (tryFold code limit st d inp out a).2.outputs = st.outputs := by
    intro inp out
    unfold tryFold
    dsimp only
    repeat' split
    all_goals exact ⟨rfl, rfl⟩
  unfold interpOp
  dsimp only
  repeat' split
  all_goals first | exact ⟨rfl, rfl⟩ | exact ht _ _

theorem interpInst_other {code : Code} {limit i j : Nat} {st : AIState} {d : InstData}
    {a : List AbsValue} (h : j ≠ i) : (interpInst code limit st i d a).2.inputs j = st.inputs j ∧
      (interpInst code limit st i d a).2.outputs j = st.outputs j := by
  unfold interpInst
  split
  · exact ⟨rfl, rfl⟩
  · dsimp only
    have := interpOp_snapshots code limit i (if 0 < d.stackIo.1 then
        { st with inputs := fun j => if j = i then (a.take d.stackIo.1).reverse else st.inputs j }
      else st) d a
    split
    · rw [this.1, this.2]
      split <;> simp [h]
    · split
      · simp only [h, if_false, this.1, this.2]
        split <;> simp [h]
      · rw [this.1, this.2]
        split <;> simp [h]

theorem interpBlock_other {code : Code} {limit j : Nat} {l : List (Nat × InstData)}
    {st : AIState} {a : List AbsValue} (h : ∀ p ∈ l, p.1 ≠ j) :
    (interpBlock code limit l st a).2.inputs j = st.inputs j ∧
      (interpBlock code limit l st a).2.outputs j = st.outputs j := by
  induction l generalizing st a with
  | nil => exact ⟨rfl, rfl⟩
  | cons p l ih =>
    have e := interpInst_other (code := code) (limit := limit) (st := st) (d := p.2) (a := a)
      (Ne.symm (h p (by simp)))
    simp only [interpBlock]
    split
    · exact e
    · have := ih (st := (interpInst code limit st p.1 p.2 a).2) (a := by assumption)
        fun p hp => h p (by simp [hp])
      rw [this.1, this.2]; exact e

theorem interpBlock_append {code : Code} {limit : Nat} {l m : List (Nat × InstData)}
    {st : AIState} {a a1 : List AbsValue} (h : (interpBlock code limit l st a).1 = some a1) :
    interpBlock code limit (l ++ m) st a =
      interpBlock code limit m (interpBlock code limit l st a).2 a1 := by
  induction l generalizing st a with
  | nil => have := Option.some.inj h; subst this; rfl
  | cons p l ih =>
    simp only [interpBlock, List.cons_append] at h ⊢
    split at h
    · simp at h
    · exact ih h

def aiCode : Code := { codeLen := 6, imm := fun i => if i = 0 then 2 else 3, target := fun _ => none }

theorem byteSize_spec (e : Word) :
    ((List.range 33).find? fun k => decide (e.toNat < 256 ^ k)).getD 33 = byteSize e := by
  have hle : byteSize e ≤ 32 := by unfold byteSize; omega
  have hp : ∀ k, 256 ^ k = 2 ^ (8 * k) := fun k => by rw [Nat.pow_mul]
  have h1 : e.toNat < 256 ^ byteSize e := by
    rw [hp]
    refine Nat.lt_of_lt_of_le BitVec.toNat_lt_two_pow_sub_clz (Nat.pow_le_pow_right (by omega) ?_)
    unfold byteSize; omega
  have h2 : ∀ k, k < byteSize e → ¬ e.toNat < 256 ^ k := by
    intro k hk hlt
    have h0 : e ≠ 0#256 := by
      rintro rfl
      have : byteSize 0#256 = 0 := by decide +kernel
      omega
    have := BitVec.two_pow_sub_clz_le_toNat_of_ne_zero (x := e) (by omega) h0
    rw [hp] at hlt
    have := (Nat.pow_lt_pow_iff_right (a := 2) (by omega)).1 (Nat.lt_of_le_of_lt this hlt)
    unfold byteSize at hk; omega
  have : (List.range 33).find? (fun k => decide (e.toNat < 256 ^ k)) = some (byteSize e) := by
    rw [List.find?_eq_some_iff_getElem]
    refine ⟨by simpa using h1, byteSize e, by simp; omega, by simp, ?_⟩
    intro j hj
    have := h2 j hj
    simpa using this
  rw [this]; rfl

/-- The accounting invariant: the counter is the total of what was evaluated, within the limit. -/
def BudgetInv (limit : Nat) (st : AIState) : Prop := st.gasUsed = st.log.sum ∧ st.log.sum ≤ limit

theorem tryFold_budget {code : Code} {limit inp out : Nat} {st : AIState} {d : InstData}
    {a : List AbsValue} (hlim : limit < U64_MAX) (h : BudgetInv limit st) :
    BudgetInv limit (tryFold code limit st d inp out a).2 := by
  unfold tryFold
  dsimp only
  split
  · split
    · exact h
    · split
      · split
        · rename_i hc _ _ _
          have : U64_MAX = 2 ^ 64 - 1 := rfl
          obtain ⟨h1, h2⟩ := h
          rename_i cost _ _ _ _
          have hb : st.gasUsed + cost ≤ limit := by omega
          refine ⟨?_, ?_⟩
          · simp only [List.sum_cons]
            rw [Nat.mod_eq_of_lt (by omega)]; omega
          · simp only [List.sum_cons]; omega
        · exact h
      · exact h
  · exact h

theorem interpOp_budget {code : Code} {limit i : Nat} {st : AIState} {d : InstData}
    {a : List AbsValue} (P : AIState → Prop) (h : P st)
    (ht : ∀ inp out, P (tryFold code limit st d inp out a).2) :
    P (interpOp code limit st i d a).2 := by
  unfold interpOp
  dsimp only
  repeat' split
  all_goals first | exact h | exact ht _ _

/-- A history of the analysis: blocks interpreted one after another from arbitrary entry stacks. -/
def runs (code : Code) (limit : Nat) (hist : List (List (Nat × InstData) × List AbsValue))
    (st : AIState) : AIState :=
  hist.foldl (fun st p => (interpBlock code limit p.1 st p.2).2) st

/-- Any property of counter and log kept by folding attempts is kept by every history. -/
theorem runs_inv {code : Code} {limit : Nat} (P : AIState → Prop)
    (hcongr : ∀ s t : AIState, s.gasUsed = t.gasUsed → s.log = t.log → P s → P t)
    (ht : ∀ st d inp out a, P st → P (tryFold code limit st d inp out a).2)
    (hist : List (List (Nat × InstData) × List AbsValue)) (st : AIState) (h : P st) :
    P (runs code limit hist st) := by
  have hI : ∀ st i d a, P st → P (interpInst code limit st i d a).2 := by
    intro st i d a h
    unfold interpInst
    split
    · exact h
    · dsimp only
      have h' : P (if 0 < d.stackIo.1 then
        { st with inputs := fun j => if j = i then (a.take d.stackIo.1).reverse else st.inputs j }
        else st) := by
        split
        · exact hcongr _ _ (by rfl) (by rfl) h
        · exact h
      have h2 := interpOp_budget (code := code) (limit := limit) (i := i) (d := d) (a := a) P h'
        (fun inp out => ht _ _ _ _ _ h')
      split
      · exact h2
      · split
        · exact hcongr _ _ (by rfl) (by rfl) h2
        · exact h2
  have hB : ∀ l st a, P st → P (interpBlock code limit l st a).2 := by
    intro l
    induction l with
    | nil => intro st a h; exact h
    | cons p l ih =>
      intro st a h
      simp only [interpBlock]
      split
      · exact hI _ _ _ _ h
      · exact ih _ _ (hI _ _ _ _ h)
  unfold runs
  induction hist generalizing st with
  | nil => exact h
  | cons p hist ih => exact ih _ (hB _ _ _ h)

/-- ADD and MUL on constants. -/
def addInst : InstData := { InstData.mk' op.ADD with stackIo := (2, 1) }

def mulInst : InstData := { InstData.mk' op.MUL with stackIo := (2, 1) }

theorem fold_add_step (st : AIState) (h : st.gasUsed < U64_MAX) :
    let st' := (interpBlock aiCode U64_MAX [(0, addInst)] st [.const 1, .const 1]).2
    st'.gasUsed = (st.gasUsed + 3) % 2 ^ 64 ∧ st'.log = 3 :: st.log := by
  have e : ∀ st0 : AIState, st0.gasUsed = st.gasUsed → st0.log = st.log →
      (interpOp aiCode U64_MAX st0 0 addInst [.const 1, .const 1]).1 = some [.const 2] ∧
      (interpOp aiCode U64_MAX st0 0 addInst [.const 1, .const 1]).2.gasUsed =
        (st.gasUsed + 3) % 2 ^ 64 ∧
      (interpOp aiCode U64_MAX st0 0 addInst [.const 1, .const 1]).2.log = 3 :: st.log := by
    intro st0 h1 h2
    rw [interpOp_generic (by decide) (by decide) (by decide)]
    have ht : tryFold aiCode U64_MAX st0 addInst 2 1 [.const 1, .const 1] =
        (some 2, { st0 with gasUsed := (st0.gasUsed + 3) % 2 ^ 64, log := 3 :: st0.log }) := by
      unfold tryFold
      rw [if_pos ⟨by omega, by omega⟩]
      have hg : constFoldGas addInst.opcode
        (List.take 2 [AbsValue.const 1, AbsValue.const 1]).reverse = some 3 := by decide +kernel
      have hf : tryConstFold addInst (List.take 2 [AbsValue.const 1, AbsValue.const 1]).reverse
        aiCode.codeLen = some 2 := by decide +kernel
      simp only [hg, hf]
      rw [if_pos (by omega)]
    have hs : addInst.stackIo = (2, 1) := rfl
    rw [if_neg (by decide)]
    simp only [hs, ht, h1, h2, List.drop, true_and]
  obtain ⟨h1, h2, h3⟩ := e { st with inputs := fun j => if j = 0 then
    (List.take 2 [AbsValue.const 1, AbsValue.const 1]).reverse else st.inputs j } rfl rfl
  intro st'
  have : st' = { (interpOp aiCode U64_MAX { st with inputs := fun j => if j = 0 then
    (List.take 2 [AbsValue.const 1, AbsValue.const 1]).reverse else st.inputs j } 0 addInst
      [.const 1, .const 1]).2 with outputs := fun j => if j = 0 then some (.const 2) else
      (interpOp aiCode U64_MAX { st with inputs := fun j => if j = 0 then
    (List.take 2 [AbsValue.const 1, AbsValue.const 1]).reverse else st.inputs j } 0 addInst
      [.const 1, .const 1]).2.outputs j } := by
    show (interpBlock aiCode U64_MAX [(0, addInst)] st [.const 1, .const 1]).2 = _
    simp only [interpBlock, interpInst]
    rw [if_neg (by decide)]
    simp only [show addInst.stackIo = (2, 1) from rfl, Nat.zero_lt_succ, if_true]
    rw [h1]
    have hsw : isSwapLike addInst.opcode = false := by decide
    simp only [hsw, Bool.false_eq_true, not_false_iff, and_true, if_true]
    rfl
  rw [this]
  exact ⟨h2, h3⟩

end Verif
