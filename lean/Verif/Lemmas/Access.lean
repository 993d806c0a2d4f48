import Verif.Model.Access
/-! # State access builtins: helper lemmas -/

namespace Verif.Access

open Verif.Builtins (Err)
open Verif.Frames (atSp)
open Verif.Spec

theorem bind_run {α β : Type} (x : M α) (f : α → M β) (s : Cx) :
    (x >>= f) s = match x s with
      | .ok a s => f a s
      | .error e s => .error e s := by
  show EStateM.bind x f s = _
  unfold EStateM.bind
  cases x s <;> rfl

theorem pure_run {α : Type} (a : α) (s : Cx) : (pure a : M α) s = .ok a s := rfl
theorem throw_run {α : Type} (e : Stop) (s : Cx) : (throw e : M α) s = .error e s := rfl
theorem get_run (s : Cx) : (get : M Cx) s = .ok s s := rfl
theorem modify_run (f : Cx → Cx) (s : Cx) : (modify f : M Unit) s = .ok () (f s) := rfl
theorem ite_run {α : Type} (c : Prop) [Decidable c] (x y : M α) (s : Cx) :
    (if c then x else y) s = if c then x s else y s := by by_cases h : c <;> simp [h]

theorem charge_run (n : Nat) (s : Cx) :
    charge n s = if n ≤ s.gas then .ok () { s with gas := s.gas - n } else .error (.err .OutOfGas) s := rfl

theorem ask_run {env : Env} (h : ∀ q, env.db q = true) (q : Query) (s : Cx) :
    ask env q s = .ok () { s with queries := s.queries ++ [q] } := by simp [ask, h]

theorem hostLoadAccount_run {env : Env} (h : ∀ q, env.db q = true) (a : Nat) (skip : Bool) (s : Cx) :
    hostLoadAccount env a skip s =
      if s.world.accessed a then .ok false s
      else if skip then .error (.err .OutOfGas) s
      else .ok true { s with queries := s.queries ++ [.account a], world := s.world.touch a } := by
  unfold hostLoadAccount
  simp only [bind_run, get_run, ite_run, pure_run, throw_run, ask_run h, modify_run]

theorem hostSload_run {env : Env} (h : ∀ q, env.db q = true) (a : Nat) (k : Word) (skip : Bool) (s : Cx) :
    hostSload env a k skip s =
      if s.world.accessedSlot a k then .ok (s.world.storage a k, false) s
      else if skip then .error (.err .OutOfGas) s
      else .ok (s.world.storage a k, true)
        { s with queries := s.queries ++ [.slot a k], world := s.world.touchSlot a k } := by
  unfold hostSload
  simp only [bind_run, get_run, ite_run, pure_run, throw_run, ask_run h, modify_run]

theorem touch_accessed {w : Ledger} {a : Nat} (h : w.accessed a = true) : w.touch a = w := by
  unfold Ledger.touch
  have : (fun x => if x = a then true else w.accessed x) = w.accessed := by
    funext x; by_cases hx : x = a <;> simp [hx, h]
  rw [this]

theorem touchSlot_accessed {w : Ledger} {a : Nat} {k : Word} (h : w.accessedSlot a k = true) :
    w.touchSlot a k = w := by
  unfold Ledger.touchSlot
  have : (fun x y => if x = a ∧ y = k then true else w.accessedSlot x y) = w.accessedSlot := by
    funext x y
    by_cases hx : x = a ∧ y = k
    · simp [hx, h]
    · rw [if_neg hx]
  rw [this]

theorem write_same {w : Ledger} {a : Nat} {k v : Word} (h : w.storage a k = v) : w.write a k v = w := by
  unfold Ledger.write
  have : (fun x y => if x = a ∧ y = k then v else w.storage x y) = w.storage := by
    funext x y
    by_cases hx : x = a ∧ y = k
    · rw [if_pos hx, hx.1, hx.2, h]
    · rw [if_neg hx]
  rw [this]

theorem baseGas_setDisabled (i : OpcodeInfo) : i.setDisabled.baseGas = i.baseGas := by
  unfold OpcodeInfo.baseGas OpcodeInfo.setDisabled
  apply BitVec.eq_of_getLsbD_eq
  intro k hk
  simp only [BitVec.truncate_eq_setWidth, BitVec.getLsbD_setWidth, BitVec.getLsbD_and, BitVec.getLsbD_or, hk]
  have : (OpcodeInfo.DISABLED).getLsbD k = false := by
    revert hk; revert k; decide
  simp [this]

theorem makeMap_baseGas (g : UInt8 → BitVec 16) (spec : SpecId) (o : UInt8) :
    (makeMap g spec o).baseGas = (makeMapBase g o).baseGas := by
  unfold makeMap
  have : ∀ (l : List (UInt8 × SpecId)) (m : UInt8 → OpcodeInfo),
      ((l.foldl (fun m (g : UInt8 × SpecId) =>
        if spec < g.2 then fun o => if o = g.1 then (m o).setDisabled else m o else m) m) o).baseGas
      = (m o).baseGas := by
    intro l
    induction l with
    | nil => intro m; rfl
    | cons x l ih =>
      intro m
      rw [List.foldl_cons, ih]
      by_cases h : spec < x.2
      · rw [if_pos h]
        by_cases h2 : o = x.1
        · simp only [h2, if_true]; exact baseGas_setDisabled _
        · simp only [h2, if_false]
      · rw [if_neg h]
  exact this _ _

theorem baseGas_new (g : BitVec 16) : (OpcodeInfo.new g).baseGas = g := by
  unfold OpcodeInfo.baseGas OpcodeInfo.new
  apply BitVec.eq_of_getLsbD_eq
  intro k hk
  have : (OpcodeInfo.MASK).getLsbD k = true := by revert hk; revert k; decide
  simp [BitVec.truncate_eq_setWidth, BitVec.getLsbD_setWidth, hk, this]

theorem baseGas_setDynamic (i : OpcodeInfo) : i.setDynamic.baseGas = i.baseGas := by
  unfold OpcodeInfo.baseGas OpcodeInfo.setDynamic
  apply BitVec.eq_of_getLsbD_eq
  intro k hk
  simp only [BitVec.truncate_eq_setWidth, BitVec.getLsbD_setWidth, BitVec.getLsbD_and, BitVec.getLsbD_or, hk]
  have : (OpcodeInfo.DYNAMIC).getLsbD k = false := by
    revert hk; revert k; decide
  simp [this]

theorem baseGas_eq {spec : SpecId} {o : UInt8} (h : (opTable o).isSome = true) :
    baseGas spec o = if FULLY_DYNAMIC.contains o then 0 else (staticGas spec o).toNat := by
  unfold baseGas
  rw [makeMap_baseGas]
  unfold makeMapBase
  obtain ⟨r, hr⟩ := Option.isSome_iff_exists.mp h
  rw [hr]
  dsimp only
  by_cases h1 : FULLY_DYNAMIC.contains o = true
  · simp only [h1, if_true, Bool.true_or, baseGas_setDynamic, baseGas_new]
    rfl
  · rw [if_neg h1, if_neg h1]
    split
    · rw [baseGas_setDynamic, baseGas_new]
    · rw [baseGas_new]

end Verif.Access
