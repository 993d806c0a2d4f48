import Verif.Spec.AbsInt
import Verif.Lemmas.Opcode
/-! # Helper lemmas: abstract values and block states -/

namespace Verif
open Spec

theorem mem_mergeSets (a b : List Word) (w : Word) : w ∈ mergeSets a b ↔ w ∈ a ∨ w ∈ b := by
  fun_induction mergeSets a b with
  | case1 b => simp
  | case2 a => simp
  | case3 x xs y ys h ih => simp only [List.mem_cons, ih]; grind
  | case4 x xs y ys h1 h2 ih => simp only [List.mem_cons, ih]; grind
  | case5 x xs y ys h1 h2 ih =>
    have : x = y := BitVec.eq_of_toNat_eq (by omega)
    subst this
    simp only [List.mem_cons, ih]; grind

theorem pairwise_mergeSets (a b : List Word) (ha : a.Pairwise (fun a b => a.toNat < b.toNat))
    (hb : b.Pairwise (fun a b => a.toNat < b.toNat)) :
    (mergeSets a b).Pairwise (fun a b => a.toNat < b.toNat) := by
  fun_induction mergeSets a b with
  | case1 b => exact hb
  | case2 a => exact ha
  | case3 x xs y ys h ih =>
    rw [List.pairwise_cons] at ha ⊢
    refine ⟨fun w hw => ?_, ih ha.2 hb⟩
    rcases (mem_mergeSets _ _ _).1 hw with h' | h'
    · exact ha.1 w h'
    · rcases List.mem_cons.1 h' with rfl | h'
      · exact h
      · have := (List.pairwise_cons.1 hb).1 w h'; omega
  | case4 x xs y ys h1 h2 ih =>
    rw [List.pairwise_cons] at hb ⊢
    refine ⟨fun w hw => ?_, ih ha hb.2⟩
    rcases (mem_mergeSets _ _ _).1 hw with h' | h'
    · rcases List.mem_cons.1 h' with rfl | h'
      · exact h2
      · have := (List.pairwise_cons.1 ha).1 w h'; omega
    · exact hb.1 w h'
  | case5 x xs y ys h1 h2 ih =>
    rw [List.pairwise_cons] at ha hb ⊢
    refine ⟨fun w hw => ?_, ih ha.2 hb.2⟩
    rcases (mem_mergeSets _ _ _).1 hw with h' | h'
    · exact ha.1 w h'
    · have := hb.1 w h'; omega

theorem length_mergeSets (a b : List Word) :
    a.length ≤ (mergeSets a b).length ∧ b.length ≤ (mergeSets a b).length := by
  fun_induction mergeSets a b with
  | case1 b => simp
  | case2 a => simp
  | case3 x xs y ys h ih => simp only [List.length_cons] at *; omega
  | case4 x xs y ys h1 h2 ih => simp only [List.length_cons] at *; omega
  | case5 x xs y ys h1 h2 ih => simp only [List.length_cons] at *; omega

theorem mergeSets_self (a : List Word) : mergeSets a a = a := by
  induction a with
  | nil => simp [mergeSets]
  | cons x xs ih => simp [mergeSets, ih]

/-- The list of constants of a value is non-empty and strictly sorted, if well-formed. -/
theorem WF_constList {v : AbsValue} (h : WF v) {l : List Word} (hl : v.constList = some l) :
    l ≠ [] ∧ l.Pairwise (fun a b => a.toNat < b.toNat) := by
  cases v with
  | top => simp [AbsValue.constList] at hl
  | const w => simp [AbsValue.constList] at hl; subst hl; simp
  | constSet s =>
    simp only [AbsValue.constList, Option.some.injEq] at hl; subst hl
    refine ⟨?_, h.2⟩
    intro e; rw [e] at h; simp [WF] at h

theorem admits_constList {v : AbsValue} {l : List Word} (hl : v.constList = some l) (w : Word) :
    Admits v w ↔ w ∈ l := by
  cases v with
  | top => simp [AbsValue.constList] at hl
  | const x => simp only [AbsValue.constList, Option.some.injEq] at hl; subst hl; simp [Admits]
  | constSet s => simp only [AbsValue.constList, Option.some.injEq] at hl; subst hl; rfl

theorem admits_internSet (s : List Word) (w : Word) : Admits (internSet s) w ↔ w ∈ s := by
  unfold internSet
  split
  · simp [Admits]
  · rfl

theorem WF_internSet {s : List Word} (h0 : s ≠ []) (h : s.Pairwise (fun a b => a.toNat < b.toNat)) :
    WF (internSet s) := by
  unfold internSet
  split
  · trivial
  · rename_i hne
    match s, h0, hne with
    | [x], _, hne => exact absurd rfl (hne x)
    | x :: y :: t, _, _ => exact ⟨by simp, h⟩

theorem constList_none {v : AbsValue} : v.constList = none ↔ v = .top := by
  cases v <;> simp [AbsValue.constList]

theorem join_top {a b : AbsValue} (h : a.join b = .top) : a = .top ∨ b = .top := by
  unfold AbsValue.join at h
  cases ha : a.constList with
  | none => exact .inl (constList_none.1 ha)
  | some x =>
    cases hb : b.constList with
    | none => exact .inr (constList_none.1 hb)
    | some y =>
      rw [ha, hb] at h
      simp only at h
      split at h
      · exact .inl h
      · unfold internSet at h; split at h <;> simp at h

theorem join_of_top (a b : AbsValue) (h : a = .top ∨ b = .top) : a.join b = .top := by
  unfold AbsValue.join
  rcases h with rfl | rfl
  · simp [AbsValue.constList]
  · cases a <;> simp [AbsValue.constList]

theorem admits_join {a b : AbsValue} (h : a.join b ≠ .top) (w : Word) :
    Admits (a.join b) w ↔ Admits a w ∨ Admits b w := by
  cases ha : a.constList with
  | none => exact absurd (join_of_top a b (.inl (constList_none.1 ha))) h
  | some x =>
    cases hb : b.constList with
    | none => exact absurd (join_of_top a b (.inr (constList_none.1 hb))) h
    | some y =>
      unfold AbsValue.join
      rw [ha, hb]
      simp only
      split
      · rename_i h; rw [← h.1]; simp
      · rw [admits_internSet, mem_mergeSets, admits_constList ha, admits_constList hb]

theorem admits_join_of {a b : AbsValue} {w : Word} (h : Admits a w ∨ Admits b w) :
    Admits (a.join b) w := by
  by_cases ht : a.join b = .top
  · rw [ht]; trivial
  · exact (admits_join ht w).2 h

theorem WF_join {a b : AbsValue} (ha : WF a) (hb : WF b) : WF (a.join b) := by
  unfold AbsValue.join
  cases hx : a.constList with
  | none => trivial
  | some x =>
    cases hy : b.constList with
    | none => trivial
    | some y =>
      simp only
      split
      · exact ha
      · obtain ⟨nx, px⟩ := WF_constList ha hx
        obtain ⟨ny, py⟩ := WF_constList hb hy
        apply WF_internSet
        · intro e
          have := (length_mergeSets x y).1
          rw [e] at this
          exact nx (List.length_eq_zero_iff.1 (by simpa using this))
        · exact pairwise_mergeSets _ _ px py

theorem join_self {a : AbsValue} (ha : WF a) : a.join a = a := by
  unfold AbsValue.join
  cases a with
  | top => rfl
  | const v => simp [AbsValue.constList, AbsValue.asConst]
  | constSet s =>
    simp only [AbsValue.constList, AbsValue.asConst, mergeSets_self]
    simp only [Option.isSome_none, Bool.false_eq_true, and_false, if_false]
    unfold internSet
    split
    · simp [WF] at ha
    · rfl

/-! ## Growth -/

/-- Number of constants of a value; `top` counts as one more than the number `n` of all constants. -/
def size (n : Nat) (v : AbsValue) : Nat :=
  match v.constList with
  | none => n + 1
  | some l => l.length

theorem sublist_of_sorted {a b : List Word} (ha : a.Pairwise (fun a b => a.toNat < b.toNat))
    (hb : b.Pairwise (fun a b => a.toNat < b.toNat)) (h : ∀ w ∈ a, w ∈ b) : a.Sublist b := by
  induction b generalizing a with
  | nil =>
    cases a with
    | nil => simp
    | cons x xs => simpa using h x (by simp)
  | cons y ys ih =>
    cases a with
    | nil => simp
    | cons x xs =>
      rw [List.pairwise_cons] at ha hb
      by_cases e : x = y
      · subst e
        refine List.Sublist.cons₂ _ (ih ha.2 hb.2 fun w hw => ?_)
        rcases List.mem_cons.1 (h w (by simp [hw])) with rfl | h'
        · have := ha.1 w hw; omega
        · exact h'
      · refine List.Sublist.cons _ (ih (by rw [List.pairwise_cons]; exact ha) hb.2 fun w hw => ?_)
        rcases List.mem_cons.1 (h w hw) with rfl | h'
        · -- `w = y` and `y ∈ x :: xs`, but `x ∈ ys` is larger than `y`
          have hx : x ∈ ys := by
            rcases List.mem_cons.1 (h x (by simp)) with h' | h'
            · exact absurd h' e
            · exact h'
          have h1 := hb.1 x hx
          rcases List.mem_cons.1 hw with rfl | h'
          · omega
          · have := ha.1 w h'; omega
        · exact h'

theorem length_le_of_nodup {a U : List Word} (ha : a.Nodup) (h : ∀ w ∈ a, w ∈ U) :
    a.length ≤ U.length := by
  induction a generalizing U with
  | nil => simp
  | cons x xs ih =>
    rw [List.nodup_cons] at ha
    have hx : x ∈ U := h x (by simp)
    have hl := List.length_erase_of_mem hx
    have := ih (U := U.erase x) ha.2 fun w hw => by
      have hwx : w ≠ x := by rintro rfl; exact ha.1 hw
      exact (List.mem_erase_of_ne hwx).2 (h w (by simp [hw]))
    have := List.length_pos_of_mem hx
    simp only [List.length_cons]; omega

theorem nodup_of_sorted {a : List Word} (ha : a.Pairwise (fun a b => a.toNat < b.toNat)) : a.Nodup :=
  ha.imp fun {x y} h e => by subst e; omega

theorem internSet_constList {a : AbsValue} (ha : WF a) {x : List Word} (hx : a.constList = some x) :
    internSet x = a := by
  cases a with
  | top => simp [AbsValue.constList] at hx
  | const v => simp only [AbsValue.constList, Option.some.injEq] at hx; subst hx; rfl
  | constSet s =>
    simp only [AbsValue.constList, Option.some.injEq] at hx; subst hx
    unfold internSet
    split
    · simp [WF] at ha
    · rfl

theorem constList_internSet (s : List Word) : (internSet s).constList = some s := by
  unfold internSet; split <;> rfl

theorem join_eq_internSet {a b : AbsValue} (ha : WF a) {x y : List Word}
    (hx : a.constList = some x) (hy : b.constList = some y) :
    a.join b = internSet (mergeSets x y) := by
  unfold AbsValue.join
  rw [hx, hy]
  simp only
  split
  · rename_i h
    rw [← h.1, hx, Option.some.injEq] at hy
    subst hy
    rw [mergeSets_self, internSet_constList ha hx]
  · rfl

theorem join_grows {a b : AbsValue} (ha : WF a) (hb : WF b) (U : List Word)
    (haU : ∀ w, a ≠ .top → Admits a w → w ∈ U) (hbU : ∀ w, b ≠ .top → Admits b w → w ∈ U)
    (hne : a.join b ≠ a) : size U.length a < size U.length (a.join b) ∧
      size U.length (a.join b) ≤ U.length + 1 := by
  cases hx : a.constList with
  | none =>
    have := constList_none.1 hx
    exact absurd (by rw [join_of_top a b (.inl this), this]) hne
  | some x =>
    have hax : a ≠ .top := fun e => by rw [e] at hx; simp [AbsValue.constList] at hx
    obtain ⟨-, px⟩ := WF_constList ha hx
    have lx : x.length ≤ U.length := length_le_of_nodup (nodup_of_sorted px) fun w hw =>
      haU w hax ((admits_constList hx w).2 hw)
    cases hy : b.constList with
    | none =>
      rw [join_of_top a b (.inr (constList_none.1 hy))]
      have h1 : size U.length a = x.length := by simp only [size, hx]
      have h2 : size U.length .top = U.length + 1 := rfl
      omega
    | some y =>
      have hby : b ≠ .top := fun e => by rw [e] at hy; simp [AbsValue.constList] at hy
      obtain ⟨-, py⟩ := WF_constList hb hy
      have hj := join_eq_internSet ha hx hy
      rw [hj] at hne ⊢
      have pm := pairwise_mergeSets x y px py
      have lm : (mergeSets x y).length ≤ U.length :=
        length_le_of_nodup (nodup_of_sorted pm) fun w hw => by
          rcases (mem_mergeSets _ _ _).1 hw with h | h
          · exact haU w hax ((admits_constList hx w).2 h)
          · exact hbU w hby ((admits_constList hy w).2 h)
      simp only [size, hx, constList_internSet]
      refine ⟨?_, by omega⟩
      rcases Nat.lt_or_ge x.length (mergeSets x y).length with h | h
      · exact h
      · exfalso
        have hs := sublist_of_sorted px pm fun w hw => (mem_mergeSets _ _ _).2 (.inl hw)
        have := hs.eq_of_length_le h
        rw [← this, internSet_constList ha hx] at hne
        exact hne rfl

/-! ## Stacks -/

theorem joinPadded_getElem? (n : Nat) (a b : List AbsValue) (i : Nat) :
    (joinPadded n a b)[i]? =
      if i < n then some ((a[i]?.getD .top).join (b[i]?.getD .top)) else none := by
  induction n generalizing a b i with
  | zero => simp [joinPadded]
  | succ n ih =>
    cases i with
    | zero => cases a <;> cases b <;> simp [joinPadded]
    | succ i =>
      simp only [joinPadded, List.getElem?_cons_succ, ih, Nat.add_lt_add_iff_right]
      cases a <;> cases b <;> simp

theorem joinPadded_length (n : Nat) (a b : List AbsValue) : (joinPadded n a b).length = n := by
  induction n generalizing a b with
  | zero => rfl
  | succ n ih => simp [joinPadded, ih]

theorem admitsStack_take {a : List AbsValue} {c : List Word} (h : AdmitsStack a c) (n : Nat) :
    AdmitsStack (a.take n) c := by
  intro i v w hv hw
  rw [List.getElem?_take] at hv
  split at hv
  · exact h i v w hv hw
  · simp at hv

theorem admitsStack_joinPadded {a b : List AbsValue} {c : List Word} (n : Nat)
    (h : AdmitsStack a c ∨ AdmitsStack b c) : AdmitsStack (joinPadded n a b) c := by
  intro i v w hv hw
  rw [joinPadded_getElem?] at hv
  split at hv
  · rw [Option.some.injEq] at hv
    subst hv
    rcases h with h | h
    · apply admits_join_of; left
      cases ha : a[i]? with
      | none => trivial
      | some v => exact h i v w ha hw
    · apply admits_join_of; right
      cases hb : b[i]? with
      | none => trivial
      | some v => exact h i v w hb hw
  · simp at hv

theorem admitsState_join {s : BlockState} {inc : List AbsValue} {c : List Word}
    (h : AdmitsState s c ∨ AdmitsStack inc c) : AdmitsState (s.join inc).1 c := by
  cases s with
  | bottom =>
    rcases h with h | h
    · exact absurd h id
    · exact admitsStack_take h _
  | known a => exact admitsStack_joinPadded _ h

end Verif
