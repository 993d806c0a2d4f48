import Verif.Model.Suspend
import Verif.Lemmas.WholeMemCode
import Verif.Lemmas.WholeEnd
/-!
# Round trips through the caller, as steps of a section
-/

namespace Verif
open Spec
variable {E F : Type}

/-! ## What survives between sections -/

/-- The part of the state that is not compile-time. -/
def SCx.core (cx : SCx E) : SCx E := { mem := cx.mem, lenVar := cx.lenVar, trace := cx.trace }

/-- The same of an outcome. -/
def FRes.core : FRes E → FRes E
  | .finished cx => .finished cx.core
  | .fail f cx => .fail f cx.core
  | .bad i cx => .bad i cx.core
  | .suspended i cx ws => .suspended i cx.core ws
  | .panic => .panic

/-- The same of a program. -/
def COut.core : COut F → COut F
  | .running k i cx => .running k i cx.core
  | .halted i cx => .halted i cx.core
  | .invalidJump cx => .invalidJump cx.core
  | .stackError f cx => .stackError f cx.core
  | .badImmediate i cx => .badImmediate i cx.core
  | .panic => .panic

theorem step_lenOff (t : TInst E) (cx : SCx E) (l : Int) : SCx.step t { cx with lenOff := l } = SCx.step t cx := rfl

theorem callOut_lenOff (t : TInst E) (cx : SCx E) (l : Int) :
    SCx.callOut t { cx with lenOff := l } = SCx.callOut t cx := rfl

theorem head_core (ts : List (TInst E)) (cx : SCx E) :
    SCx.head ts cx.core = { SCx.head ts cx with lenOff := 0 } := rfl

/-- The result of being called back: the caller has pushed the first word of `ws`. -/
def SCx.back (junk : Int → Word) (cx : SCx E) (ws : List Word) : SCx E :=
  { cx with
    trace := .suspended ((List.range cx.lenVar.toNat).map fun (k : Nat) => cx.mem k) :: cx.trace
    mem := fun a => if a = cx.lenVar then ws.headD 0 else if cx.lenVar < a then junk a else cx.mem a
    lenVar := cx.lenVar + 1 }

theorem step_back {t : TInst E} (h1 : t.lower = .suspend) (h2 : t.noop = false)
    (h3 : 0 < t.out → t.constOut = none) (cx : SCx E) :
    SCx.step t cx = some (SCx.back t.clob (SCx.callOut t cx).1 (SCx.callOut t cx).2) := by
  have h4 : (if 0 < t.out then t.constOut else none) = none := by
    split
    · exact h3 ‹_›
    · rfl
  unfold SCx.step
  dsimp only
  rw [h2, h4]
  simp only [Bool.false_eq_true, if_false]
  have : t.lower.leaves = true := by rw [h1]; rfl
  rw [if_pos this]
  unfold SCx.body
  rw [h1]
  rfl

/-! ## Sections without the round trips spelled out -/

/-- `frameSteps` with round trips in one step. -/
def Compiled.wholeSteps (C : Compiled) (f : Nat × InstData → TInst E) : List (Nat × InstData) → SCx E → FRes E
  | [], cx => .finished cx
  | x :: xs, cx =>
    if badImm C.code x then .bad x.1 cx
    else match SCx.step (f x) cx with
      | none => .panic
      | some cx => match xs with
        | [] => .finished (if (f x).lower.leaves then cx else cx.materializeLive)
        | _ :: _ => C.wholeSteps f xs cx.relieve

/-- `frameSections` with round trips in one step. -/
def Compiled.wholeSections (C : Compiled) (f : Nat × InstData → TInst E) :
    List (List (Nat × InstData)) → SCx E → FRes E
  | [], cx => .finished cx
  | s :: rest, cx =>
    match headCheck (s.map f) cx with
    | some e => .fail e cx
    | none =>
      match C.wholeSteps f s (SCx.head (s.map f) cx) with
      | .finished cx => C.wholeSections f rest cx
      | r => r

theorem wholeSections_cons {C : Compiled} {f : Nat × InstData → TInst E} (s : List (Nat × InstData))
    (rest : List (List (Nat × InstData))) (cx : SCx E) :
    C.wholeSections f (s :: rest) cx = match headCheck (s.map f) cx with
      | some e => .fail e cx
      | none => match C.wholeSteps f s (SCx.head (s.map f) cx) with
        | .finished cx => C.wholeSections f rest cx
        | r => r := rfl

theorem whole_ok {C : Compiled} {f : Nat × InstData → TInst E} :
    ∀ (s : List (Nat × InstData)) (cx : SCx E), (∀ x ∈ s, badImm C.code x = false) →
      C.wholeSteps f s cx = match SCx.steps (s.map f) cx with | none => .panic | some cx => .finished cx
  | [], cx, _ => rfl
  | [x], cx, h => by
    unfold Compiled.wholeSteps
    rw [h x (by simp)]
    simp only [Bool.false_eq_true, if_false, List.map_cons, List.map_nil]
    unfold SCx.steps
    cases SCx.step (f x) cx <;> rfl
  | x :: y :: s, cx, h => by
    unfold Compiled.wholeSteps
    rw [h x (by simp)]
    simp only [Bool.false_eq_true, if_false, List.map_cons]
    unfold SCx.steps
    cases SCx.step (f x) cx with
    | none => rfl
    | some cx =>
      show C.wholeSteps f (y :: s) cx.relieve = _
      rw [whole_ok (y :: s) cx.relieve (fun z hz => h z (List.mem_cons_of_mem _ hz))]
      rfl

theorem whole_bad {C : Compiled} {f : Nat × InstData → TInst E} :
    ∀ (s : List (Nat × InstData)) (n : Nat) (y : Nat × InstData) (cx : SCx E), s.findIdx? (badImm C.code) = some n →
      s[n]? = some y →
      C.wholeSteps f s cx = match SCx.partSection ((s.map f).take n) cx with | none => .panic | some cx => .bad y.1 cx
  | [], n, y, cx, h, _ => by simp at h
  | x :: s, n, y, cx, h, hy => by
    rw [List.findIdx?_cons] at h
    unfold Compiled.wholeSteps
    cases hx : badImm C.code x with
    | true =>
      rw [hx] at h
      simp only [if_true, Option.some.injEq] at h
      subst h
      simp only [List.getElem?_cons_zero, Option.some.injEq] at hy
      subst hy
      simp only [if_true, List.take_zero]
      rfl
    | false =>
      rw [hx] at h
      simp only [Bool.false_eq_true, if_false] at h ⊢
      obtain ⟨m, hm, rfl⟩ := Option.map_eq_some_iff.1 h
      rw [List.getElem?_cons_succ] at hy
      rw [List.map_cons, List.take_succ_cons]
      unfold SCx.partSection
      cases SCx.step (f x) cx with
      | none => rfl
      | some cx =>
        cases s with
        | nil => simp at hm
        | cons z s =>
          show C.wholeSteps f (z :: s) cx.relieve = _
          rw [whole_bad (z :: s) m y cx.relieve hm hy]
          rfl

/-- The sections of a block as `Compiled.block` executes them. -/
theorem wholeSections_eq {C : Compiled} {f : Nat × InstData → TInst E} :
    ∀ (ss : List (List (Nat × InstData))) (cx : SCx E),
      C.wholeSections f ss cx =
        match ss.flatten.findIdx? (badImm C.code) with
        | some n =>
          match checkedPrefix n (ss.map (List.map f)) cx with
          | .done cx => match ss.flatten[n]? with | some y => .bad y.1 cx | none => .panic
          | .fail e cx => .fail e cx
          | .panic => .panic
        | none =>
          match checkedSections (ss.map (List.map f)) cx with
          | .done cx => .finished cx
          | .fail e cx => .fail e cx
          | .panic => .panic
  | [], cx => rfl
  | s :: rest, cx => by
    unfold Compiled.wholeSections
    rw [List.flatten_cons, List.findIdx?_append, List.map_cons]
    cases hs : s.findIdx? (badImm C.code) with
    | some n =>
      have hlt : n < s.length := by
        rw [List.findIdx?_eq_some_iff_getElem] at hs
        exact hs.1
      simp only [Option.some_or]
      unfold checkedPrefix
      rw [List.getElem?_append_left hlt, List.getElem?_eq_getElem hlt]
      cases headCheck (s.map f) cx with
      | some e => rfl
      | none =>
        dsimp only
        rw [List.length_map, if_neg (by omega), whole_bad s n s[n] _ hs (List.getElem?_eq_getElem hlt)]
        cases SCx.partSection ((s.map f).take n) (SCx.head (s.map f) cx) <;> rfl
    | none =>
      have hno : ∀ x ∈ s, badImm C.code x = false := by
        rw [List.findIdx?_eq_none_iff] at hs
        intro x hx
        simpa using hs x hx
      simp only [Option.none_or]
      cases hr : rest.flatten.findIdx? (badImm C.code) with
      | some n =>
        simp only [Option.map_some]
        unfold checkedPrefix
        cases headCheck (s.map f) cx with
        | some e => rfl
        | none =>
          dsimp only
          rw [List.length_map, if_pos (by omega), whole_ok s _ hno]
          unfold SCx.runSection
          cases SCx.steps (s.map f) (SCx.head (s.map f) cx) with
          | none => rfl
          | some cx =>
            dsimp only
            rw [wholeSections_eq rest cx, hr]
            dsimp only
            rw [Nat.add_sub_cancel, List.getElem?_append_right (by omega), Nat.add_sub_cancel]
      | none =>
        simp only [Option.map_none]
        unfold checkedSections
        cases headCheck (s.map f) cx with
        | some e => rfl
        | none =>
          dsimp only
          rw [whole_ok s _ hno]
          unfold SCx.runSection
          cases SCx.steps (s.map f) (SCx.head (s.map f) cx) with
          | none => rfl
          | some cx =>
            dsimp only
            rw [wholeSections_eq rest cx, hr]

/-! ## Independence of the compile-time part -/

theorem wholeSteps_lenOff {C : Compiled} {f : Nat × InstData → TInst E} (s : List (Nat × InstData)) (cx : SCx E) (l : Int) :
    (C.wholeSteps f s { cx with lenOff := l }).core = (C.wholeSteps f s cx).core := by
  cases s with
  | nil => rfl
  | cons x xs =>
    unfold Compiled.wholeSteps
    rw [step_lenOff]
    cases badImm C.code x <;> rfl

theorem frameSteps_lenOff {C : Compiled} {f : Nat × InstData → TInst E} (s : List (Nat × InstData)) (cx : SCx E) (l : Int) :
    (C.frameSteps f s { cx with lenOff := l }).core = (C.frameSteps f s cx).core := by
  cases s with
  | nil => rfl
  | cons x xs =>
    unfold Compiled.frameSteps
    rw [step_lenOff, callOut_lenOff]
    cases badImm C.code x
    · cases C.suspends x <;> rfl
    · rfl

theorem headCheck_core (ts : List (TInst E)) (cx : SCx E) : headCheck ts cx.core = headCheck ts cx := rfl

theorem core_core (cx : SCx E) : cx.core.core = cx.core := rfl

theorem wholeSections_core {C : Compiled} {f : Nat × InstData → TInst E} :
    ∀ (ss : List (List (Nat × InstData))) (cx cx' : SCx E), cx.core = cx'.core →
      (C.wholeSections f ss cx).core = (C.wholeSections f ss cx').core
  | [], cx, cx', h => by
    show FRes.finished cx.core = FRes.finished cx'.core
    rw [h]
  | s :: rest, cx, cx', h => by
    unfold Compiled.wholeSections
    rw [← headCheck_core, h, headCheck_core]
    cases headCheck (s.map f) cx' with
    | some e => show FRes.fail e cx.core = FRes.fail e cx'.core; rw [h]
    | none =>
      dsimp only
      have h1 : (C.wholeSteps f s (SCx.head (s.map f) cx)).core = (C.wholeSteps f s (SCx.head (s.map f) cx')).core := by
        rw [← wholeSteps_lenOff s (SCx.head (s.map f) cx) 0, ← wholeSteps_lenOff s (SCx.head (s.map f) cx') 0,
          ← head_core, ← head_core, h]
      revert h1
      generalize C.wholeSteps f s (SCx.head (s.map f) cx) = a
      generalize C.wholeSteps f s (SCx.head (s.map f) cx') = b
      intro h1
      cases a <;> cases b <;> simp only [FRes.core, reduceCtorEq, FRes.finished.injEq] at h1
      all_goals first | exact wholeSections_core rest _ _ h1 | (simp only [FRes.core]; first | done | exact h1)

/-! ## The round trips are steps -/

/-- The code of suspending instructions suspends. -/
def Suspending (C : Compiled) (f : Nat × InstData → TInst E) : Prop :=
  ∀ x, C.suspends x = true → (f x).lower = .suspend ∧ (f x).noop = false ∧ (0 < (f x).out → (f x).constOut = none)

theorem frameSteps_spec {C : Compiled} {f : Nat × InstData → TInst E} (hf : Suspending C f) :
    ∀ (s : List (Nat × InstData)) (cx : SCx E), (∀ x ∈ s.dropLast, C.suspends x = false) →
      match C.frameSteps f s cx with
      | .suspended i cx' ws => ∃ x, s.getLast? = some x ∧ x.1 = i ∧ C.suspends x = true ∧
          C.wholeSteps f s cx = .finished (SCx.back (f x).clob cx' ws)
      | r => C.wholeSteps f s cx = r
  | [], cx, _ => rfl
  | x :: xs, cx, h => by
    unfold Compiled.frameSteps
    unfold Compiled.wholeSteps
    cases badImm C.code x with
    | true => rfl
    | false =>
      simp only [Bool.false_eq_true, if_false]
      cases hx : C.suspends x with
      | true =>
        simp only [if_true]
        cases xs with
        | nil =>
          obtain ⟨h1, h2, h3⟩ := hf x hx
          refine ⟨x, by simp, rfl, hx, ?_⟩
          rw [step_back h1 h2 h3]
          dsimp only
          rw [if_pos (by rw [h1]; rfl)]
        | cons y ys =>
          rw [List.dropLast_cons_of_ne_nil (by simp)] at h
          rw [h x (by simp)] at hx
          cases hx
      | false =>
        simp only [Bool.false_eq_true, if_false]
        cases SCx.step (f x) cx with
        | none => rfl
        | some cx =>
          cases xs with
          | nil => rfl
          | cons y ys =>
            dsimp only
            have hd : ∀ z ∈ (y :: ys).dropLast, C.suspends z = false := fun z hz =>
              h z (by rw [List.dropLast_cons_of_ne_nil (by simp)]; exact List.mem_cons_of_mem _ hz)
            have := frameSteps_spec hf (y :: ys) cx.relieve hd
            revert this
            cases C.frameSteps f (y :: ys) cx.relieve with
            | suspended i cx' ws =>
              rintro ⟨z, h1, h2, h3, h4⟩
              exact ⟨z, by rw [List.getLast?_cons_cons]; exact h1, h2, h3, h4⟩
            | _ => exact fun h => h

theorem frameSections_spec {C : Compiled} {f : Nat × InstData → TInst E} (hf : Suspending C f) :
    ∀ (ss : List (List (Nat × InstData))) (cx : SCx E), (∀ s ∈ ss, ∀ x ∈ s.dropLast, C.suspends x = false) →
      match C.frameSections f ss cx with
      | .suspended i cx' ws => ∃ pre s rest x, ss = pre ++ s :: rest ∧ s.getLast? = some x ∧ x.1 = i ∧
          C.suspends x = true ∧ C.wholeSections f ss cx = C.wholeSections f rest (SCx.back (f x).clob cx' ws)
      | r => C.wholeSections f ss cx = r
  | [], cx, _ => rfl
  | s :: rest, cx, h => by
    unfold Compiled.frameSections
    rw [wholeSections_cons]
    cases headCheck (s.map f) cx with
    | some e => rfl
    | none =>
      dsimp only
      have hs := frameSteps_spec hf s (SCx.head (s.map f) cx) (h s (by simp))
      revert hs
      cases C.frameSteps f s (SCx.head (s.map f) cx) with
      | suspended i cx' ws =>
        rintro ⟨x, h1, h2, h3, h4⟩
        exact ⟨[], s, rest, x, rfl, h1, h2, h3, by rw [h4]⟩
      | finished cx1 =>
        intro hs
        dsimp only at hs ⊢
        rw [hs]
        dsimp only
        have hr := frameSections_spec hf rest cx1 (fun s' hs' => h s' (List.mem_cons_of_mem _ hs'))
        revert hr
        cases C.frameSections f rest cx1 with
        | suspended i cx' ws =>
          rintro ⟨pre, s', rest', x, h1, h2, h3, h4, h5⟩
          exact ⟨s :: pre, s', rest', x, by rw [h1]; rfl, h2, h3, h4, h5⟩
        | _ => exact fun h => h
      | _ => intro hs; dsimp only at hs ⊢; rw [hs]

end Verif
