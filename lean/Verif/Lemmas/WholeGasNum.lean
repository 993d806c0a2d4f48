import Verif.Model.WholeGas
import Verif.Spec.WholeGas
/-!
# Charging section by section and instruction by instruction
-/

namespace Verif

/-- The costs of an instruction: static, folded into the section, charged by its code. -/
structure GItem where
  st : Nat
  ex : Nat
  ch : Nat
  k : Nat
  rd : Bool

/-- Charging instruction by instruction. -/
def payEach : List GItem → Nat → List (Nat × Nat) → Option (Nat × List (Nat × Nat))
  | [], g, r => some (g, r)
  | x :: l, g, r =>
    if g < x.st + (x.ex + x.ch) then none
    else payEach l (g - x.st - (x.ex + x.ch)) (if x.rd then (x.k, g - x.st) :: r else r)

/-- Charging what the code charges, after the head of the section. -/
def paySteps : List GItem → Nat → List (Nat × Nat) → Option (Nat × List (Nat × Nat))
  | [], g, r => some (g, r)
  | x :: l, g, r =>
    if g < x.ch then none
    else paySteps l (g - x.ch) (if x.rd then (x.k, g) :: r else r)

/-- What a section charges at its head. -/
def headGas (l : List GItem) : Nat := (l.map fun x => x.st + x.ex).sum

/-- Charging section by section. -/
def paySecs : List (List GItem) → Nat → List (Nat × Nat) → Option (Nat × List (Nat × Nat))
  | [], g, r => some (g, r)
  | s :: l, g, r =>
    if g < headGas s then none
    else match paySteps s (g - headGas s) r with
      | none => none
      | some (g, r) => paySecs l g r

/-- Only the last instruction reads the counter, and no cost of a reader is folded. -/
def ReadsLast (s : List GItem) : Prop := (∀ x ∈ s.dropLast, x.rd = false) ∧ ∀ x ∈ s, x.rd = true → x.ex = 0

theorem ReadsLast.tail {x : GItem} {s : List GItem} (h : ReadsLast (x :: s)) : ReadsLast s := by
  constructor
  · intro y hy
    refine h.1 y ?_
    cases s with
    | nil => simp at hy
    | cons z s => rw [List.dropLast_cons_of_ne_nil (by simp)]; exact List.mem_cons_of_mem _ hy
  · exact fun y hy => h.2 y (List.mem_cons_of_mem _ hy)

theorem headGas_cons (x : GItem) (s : List GItem) : headGas (x :: s) = x.st + x.ex + headGas s := by
  simp [headGas]

theorem payEach_none : ∀ (s : List GItem) (g : Nat) (r : List (Nat × Nat)), g < headGas s → payEach s g r = none
  | [], g, r, h => by simp [headGas] at h
  | x :: s, g, r, h => by
    rw [headGas_cons] at h
    unfold payEach
    split
    · rfl
    · exact payEach_none s _ _ (by omega)

theorem paySteps_each : ∀ (s : List GItem) (g : Nat) (r : List (Nat × Nat)), ReadsLast s →
    paySteps s g r = payEach s (g + headGas s) r
  | [], g, r, _ => by simp [paySteps, payEach, headGas]
  | x :: s, g, r, h => by
    have ih := fun g r => paySteps_each s g r h.tail
    unfold paySteps payEach
    rw [headGas_cons]
    by_cases hg : g < x.ch
    · rw [if_pos hg]
      by_cases h2 : g + (x.st + x.ex + headGas s) < x.st + (x.ex + x.ch)
      · rw [if_pos h2]
      · rw [if_neg h2]
        symm
        exact payEach_none s _ _ (by omega)
    · rw [if_neg hg, if_neg (show ¬ g + (x.st + x.ex + headGas s) < x.st + (x.ex + x.ch) by omega), ih]
      have e1 : g - x.ch + headGas s = g + (x.st + x.ex + headGas s) - x.st - (x.ex + x.ch) := by omega
      rw [e1]
      cases hrd : x.rd with
      | false => rfl
      | true =>
        have hs : s = [] := by
          cases s with
          | nil => rfl
          | cons y s =>
            have := h.1 x (by rw [List.dropLast_cons_of_ne_nil (by simp)]; simp)
            rw [hrd] at this; cases this
        subst hs
        have := h.2 x (by simp) hrd
        rw [if_pos rfl, if_pos rfl, show g + (x.st + x.ex + headGas []) - x.st = g by
          simp only [headGas, List.map_nil, List.sum_nil]; omega]

theorem payEach_cons (x : GItem) (l : List GItem) (g : Nat) (r : List (Nat × Nat)) : payEach (x :: l) g r =
    if g < x.st + (x.ex + x.ch) then none
    else payEach l (g - x.st - (x.ex + x.ch)) (if x.rd then (x.k, g - x.st) :: r else r) := rfl

theorem payEach_append : ∀ (a b : List GItem) (g : Nat) (r : List (Nat × Nat)),
    payEach (a ++ b) g r = (payEach a g r).bind fun q => payEach b q.1 q.2
  | [], b, g, r => rfl
  | x :: a, b, g, r => by
    rw [List.cons_append, payEach_cons, payEach_cons]
    split
    · rfl
    · exact payEach_append a b _ _

/-- Section by section or instruction by instruction is the same. -/
theorem paySecs_each : ∀ (secs : List (List GItem)) (g : Nat) (r : List (Nat × Nat)), (∀ s ∈ secs, ReadsLast s) →
    paySecs secs g r = payEach secs.flatten g r
  | [], g, r, _ => rfl
  | s :: secs, g, r, h => by
    rw [List.flatten_cons, payEach_append]
    unfold paySecs
    by_cases hg : g < headGas s
    · rw [if_pos hg, payEach_none s g r hg]; rfl
    · rw [if_neg hg, paySteps_each s _ _ (h s (by simp)), show g - headGas s + headGas s = g by omega]
      cases payEach s g r with
      | none => rfl
      | some q => exact paySecs_each secs q.1 q.2 (fun s hs => h s (by simp [hs]))

/-- The total cost. -/
def costOf (l : List GItem) : Nat := (l.map fun x => x.st + (x.ex + x.ch)).sum

theorem payEach_cost : ∀ (l : List GItem) (g : Nat) (r : List (Nat × Nat)) {g' : Nat} {r' : List (Nat × Nat)},
    payEach l g r = some (g', r') → g = g' + costOf l
  | [], g, r, g', r', h => by cases h; simp [costOf]
  | x :: l, g, r, g', r', h => by
    unfold payEach at h
    split at h
    · cases h
    · have := payEach_cost l _ _ h
      simp only [costOf, List.map_cons, List.sum_cons] at this ⊢
      omega

theorem costOf_append (a b : List GItem) : costOf (a ++ b) = costOf a + costOf b := by
  simp [costOf, List.map_append, List.sum_append]

theorem headGas_append (a b : List GItem) : headGas (a ++ b) = headGas a + headGas b := by
  simp [headGas, List.map_append, List.sum_append]

theorem costOf_eq (l : List GItem) : costOf l = headGas l + (l.map (·.ch)).sum := by
  induction l with
  | nil => rfl
  | cons x l ih =>
    simp only [costOf, headGas, List.map_cons, List.sum_cons] at ih ⊢
    omega

end Verif
