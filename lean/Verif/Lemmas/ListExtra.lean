/-! List helpers that are not in core Lean. -/

namespace Verif

/-- Induction by adding elements at the end. -/
theorem snocInd {α : Type} {P : List α → Prop} (nil : P [])
    (append_singleton : ∀ (l : List α) (e : α), P l → P (l ++ [e])) (l : List α) : P l := by
  have h : ∀ r : List α, P r.reverse := by
    intro r
    induction r with
    | nil => exact nil
    | cons a r ih => rw [List.reverse_cons]; exact append_singleton _ _ ih
  have := h l.reverse
  rwa [List.reverse_reverse] at this

end Verif
