import Verif.Lemmas.SuspendRun
import Verif.Spec.Suspend
/-!
# Only suspensions show the caller a stack
-/

namespace Verif
open Spec
variable {E F : Type}

/-- The stacks shown to the caller, latest first. -/
def calls (evs : List (Ev E)) : List (List Word) :=
  evs.filterMap fun e => match e with
    | .suspended s => some s
    | _ => none

theorem called_shown (evs : List (Ev (Option F))) : called (shown evs) = calls evs := by
  unfold called shown calls
  rw [List.filterMap_filterMap]
  congr 1
  funext e
  cases e with
  | ran f => cases f <;> rfl
  | _ => rfl

theorem calls_ran (e : E) (l : List (Ev E)) : calls (.ran e :: l) = calls l := rfl
theorem calls_branched (a b : Option Word) (l : List (Ev E)) : calls (.branched a b :: l) = calls l := rfl
theorem calls_suspended (s : List Word) (l : List (Ev E)) : calls (.suspended s :: l) = s :: calls l := rfl

theorem push_trace {cx cx' : SCx E} {v : Word} (h : cx.push v = some cx') : cx'.trace = cx.trace := by
  obtain ⟨_, _, rfl⟩ := Option.map_eq_some_iff.1 h
  rfl

theorem popIgnore_trace {cx cx' : SCx E} {n : Nat} (h : cx.popIgnore n = some cx') : cx'.trace = cx.trace := by
  obtain ⟨_, _, rfl⟩ := Option.map_eq_some_iff.1 h
  rfl

theorem valueAtDepth_trace {t : TInst E} {a b : Nat} {cx : SCx E} {r : Word × SCx E}
    (h : SCx.valueAtDepth t a b cx = some r) : r.2.trace = cx.trace := by
  unfold SCx.valueAtDepth at h
  split at h
  · cases h; rfl
  · split at h
    · cases h
    · cases h; rfl
    · obtain ⟨_, _, rfl⟩ := Option.map_eq_some_iff.1 h
      rfl

theorem readVals_trace {t : TInst E} {a : Nat} : ∀ (n i : Nat) (cx : SCx E) {r : List Word × SCx E},
    SCx.readVals t a n i cx = some r → r.2.trace = cx.trace
  | 0, i, cx, r, h => by cases h; rfl
  | n + 1, i, cx, r, h => by
    unfold SCx.readVals at h
    obtain ⟨q, hq, h⟩ := Option.bind_eq_some_iff.1 h
    obtain ⟨s, hs, rfl⟩ := Option.map_eq_some_iff.1 h
    exact (readVals_trace n (i + 1) q.2 hs).trans (valueAtDepth_trace hq)

theorem popn_trace {t : TInst E} {n : Nat} {cx : SCx E} {r : List Word × SCx E} (h : SCx.popn t n cx = some r) :
    r.2.trace = cx.trace := by
  obtain ⟨q, hq, h⟩ := Option.bind_eq_some_iff.1 h
  obtain ⟨s, hs, rfl⟩ := Option.map_eq_some_iff.1 h
  exact (popIgnore_trace hs).trans (readVals_trace _ _ _ hq)

theorem pushAll_trace : ∀ {ws : List Word} {cx cx' : SCx E}, SCx.pushAll ws cx = some cx' → cx'.trace = cx.trace
  | [], cx, cx', h => by cases h; rfl
  | w :: ws, cx, cx', h => by
    obtain ⟨q, hq, h⟩ := Option.bind_eq_some_iff.1 h
    exact (push_trace h).trans (pushAll_trace hq)

theorem sync_trace {t : TInst E} {cx cx' : SCx E} (h : SCx.sync t cx = some cx') : cx'.trace = cx.trace := by
  unfold SCx.sync at h
  dsimp only at h
  split at h
  · cases h; rfl
  · split at h
    · cases h
    · obtain ⟨_, _, rfl⟩ := Option.map_eq_some_iff.1 h
      rfl

theorem syncNoop_trace {t : TInst E} {cx cx' : SCx E} (h : SCx.syncNoop t cx = some cx') : cx'.trace = cx.trace := by
  unfold SCx.syncNoop at h
  dsimp only at h
  split at h
  · cases h; rfl
  · split at h
    · obtain ⟨_, _, rfl⟩ := Option.map_eq_some_iff.1 h
      rfl
    · split at h
      · obtain ⟨_, _, rfl⟩ := Option.map_eq_some_iff.1 h
        rfl
      · obtain ⟨_, _, rfl⟩ := Option.map_eq_some_iff.1 h
        rfl

theorem popOne_trace {t : TInst E} {rd : Bool} {cx : SCx E} {r : Option Word × SCx E}
    (h : (if rd then (SCx.popn t 1 cx).map fun r => (r.1[0]?, r.2)
      else (cx.popIgnore 1).map fun cx => (none, cx)) = some r) : r.2.trace = cx.trace := by
  split at h
  · obtain ⟨_, h1, rfl⟩ := Option.map_eq_some_iff.1 h
    exact popn_trace h1
  · obtain ⟨_, h1, rfl⟩ := Option.map_eq_some_iff.1 h
    exact popIgnore_trace h1

theorem body_calls {t : TInst E} {cx cx' : SCx E} (hl : t.lower ≠ .suspend) (h : SCx.body t cx = some cx') :
    calls cx'.trace = calls cx.trace := by
  unfold SCx.body at h
  split at h
  · cases h; rfl
  · rw [popIgnore_trace h]
  · obtain ⟨q, hq, h⟩ := Option.bind_eq_some_iff.1 h
    rw [pushAll_trace h]
    show calls (.ran _ :: q.2.trace) = _
    rw [calls_ran, popn_trace hq]
  · obtain ⟨q, hq, h⟩ := Option.bind_eq_some_iff.1 h
    rw [push_trace h, popIgnore_trace hq]
  · unfold SCx.dup at h
    split at h
    · cases h
    · obtain ⟨q, hq, h⟩ := Option.bind_eq_some_iff.1 h
      rw [push_trace h, valueAtDepth_trace hq]
  · unfold SCx.exchange at h
    split at h
    · cases h
    · obtain ⟨q, hq, h⟩ := Option.bind_eq_some_iff.1 h
      obtain ⟨r, hr, h⟩ := Option.bind_eq_some_iff.1 h
      obtain ⟨_, _, h⟩ := Option.bind_eq_some_iff.1 h
      obtain ⟨_, _, rfl⟩ := Option.map_eq_some_iff.1 h
      show calls r.2.trace = _
      rw [valueAtDepth_trace hr, valueAtDepth_trace hq]
  · cases h; rfl
  · cases h; rfl
  · obtain ⟨_, _, rfl⟩ := Option.map_eq_some_iff.1 h
    rfl
  · cases h; rfl
  · obtain ⟨q, hq, h⟩ := Option.bind_eq_some_iff.1 h
    rw [pushAll_trace h]
    show calls (.ran _ :: q.2.trace) = _
    rw [calls_ran, popn_trace hq]
    rfl
  · obtain ⟨q, hq, h⟩ := Option.bind_eq_some_iff.1 h
    rw [push_trace h, popIgnore_trace hq]
    rfl
  · rename_i hs
    exact absurd hs hl
  · obtain ⟨q, hq, h⟩ := Option.bind_eq_some_iff.1 h
    obtain ⟨r, hr, rfl⟩ := Option.map_eq_some_iff.1 h
    show calls (.branched _ _ :: r.2.trace) = _
    rw [calls_branched]
    have h1 : r.2.trace = q.2.trace := by
      split at hr
      · exact popOne_trace hr
      · cases hr; rfl
    rw [h1, popOne_trace hq]

theorem step_calls {t : TInst E} {cx cx' : SCx E} (hl : t.lower ≠ .suspend ∨ t.noop = true ∨ (0 < t.out ∧ t.constOut.isSome))
    (h : SCx.step t cx = some cx') : calls cx'.trace = calls cx.trace := by
  unfold SCx.step at h
  dsimp only at h
  split at h
  · obtain ⟨q, hq, rfl⟩ := Option.map_eq_some_iff.1 h
    show calls q.trace = _
    rw [syncNoop_trace hq]
  · rename_i hn
    have hc : ∀ newOff : Int, (if newOff = cx.storedOff then { cx with lenOff := 0 }
      else { cx with lenOff := 0, lenVar := cx.startLen + newOff, storedOff := newOff } : SCx E).trace = cx.trace := by
      intro newOff
      split <;> rfl
    split at h
    · split at h
      · cases h
      · obtain ⟨q, hq, rfl⟩ := Option.map_eq_some_iff.1 h
        obtain ⟨vs, _, hq⟩ := Option.bind_eq_some_iff.1 hq
        show calls q.trace = _
        rw [push_trace hq]
        exact congrArg calls (hc _)
    · rename_i hno
      have hl : t.lower ≠ .suspend := by
        rcases hl with hl | hl | ⟨h1, h2⟩
        · exact hl
        · exact absurd hl hn
        · rw [if_pos h1] at hno
          rw [hno] at h2
          cases h2
      split at h
      · rw [body_calls hl h]
        exact congrArg calls (hc _)
      · obtain ⟨q, hq, rfl⟩ := Option.map_eq_some_iff.1 h
        obtain ⟨r, hr, hq⟩ := Option.bind_eq_some_iff.1 hq
        show calls q.trace = _
        rw [sync_trace hq, body_calls hl hr]
        exact congrArg calls (hc _)

theorem callOut_calls (t : TInst E) (cx : SCx E) : calls (SCx.callOut t cx).1.trace = calls cx.trace := by
  unfold SCx.callOut
  dsimp only
  split <;> rfl

theorem relieve_trace (cx : SCx E) : cx.relieve.trace = cx.trace := by
  unfold SCx.relieve
  split
  · rfl
  · split
    · rfl
    · dsimp only
      split <;> rfl

/-- Code that does not suspend is silent towards the caller. -/
def Silent (C : Compiled) (f : Nat × InstData → TInst E) : Prop :=
  ∀ x, C.suspends x = false → (f x).lower ≠ .suspend ∨ (f x).noop = true ∨ (0 < (f x).out ∧ (f x).constOut.isSome)

theorem lowerOf_suspend {code : Code} {st : AIState} {i : Nat} {d : InstData} (h : d.maySuspend = false) :
    lowerOf code st i d ≠ .suspend := by
  unfold lowerOf
  dsimp only
  rw [h]
  intro hs
  split at hs
  · cases hs
  split at hs
  · cases hs
  split at hs
  · rename_i h; cases h
  split at hs
  · cases hs
  split at hs
  · cases hs
  split at hs
  · cases hs
  split at hs
  · split at hs <;> cases hs
  split at hs
  · split at hs <;> cases hs
  split at hs
  · split at hs <;> cases hs
  unfold lowerPlain at hs
  split at hs
  · cases hs
  · cases hs
  · cases hs
  · cases hs
  split at hs
  · cases hs
  split at hs
  · cases hs
  split at hs
  · cases hs
  split at hs
  · cases hs
  split at hs <;> cases hs

theorem plain_toT {C : Compiled} {act : Nat → List Word → List Word × E} {clob : Nat → Int → Word} :
    Silent C (toT C.code C.ai act clob) := by
  intro x hx
  unfold Compiled.suspends at hx
  by_cases h : lowerOf C.code C.ai x.1 x.2 = .suspend
  · right
    have h1 : (x.2.flags.disabled || x.2.flags.unknown) = false := by
      cases hd : x.2.flags.disabled || x.2.flags.unknown with
      | false => rfl
      | true =>
        unfold lowerOf at h
        dsimp only at h
        rw [hd] at h
        simp at h
    have h2 : x.2.maySuspend = true := by
      cases hm : x.2.maySuspend with
      | true => rfl
      | false => exact absurd h (lowerOf_suspend hm)
    rw [h1, h2] at hx
    cases hn : x.2.flags.noop with
    | true => exact .inl hn
    | false =>
      rw [hn] at hx
      simp only [Bool.not_false, Bool.and_true, Bool.true_and, Bool.not_eq_eq_eq_not, Bool.and_eq_true,
        decide_eq_true_eq] at hx
      exact .inr hx
  · exact .inl h

/-- The events up to the end of straight-line code, if it does not panic. -/
def FRes.trace : FRes E → Option (List (Ev E))
  | .finished cx | .fail _ cx | .bad _ cx | .suspended _ cx _ => some cx.trace
  | .panic => none

theorem frameSteps_calls {C : Compiled} {f : Nat × InstData → TInst E} (hf : Silent C f) :
    ∀ (s : List (Nat × InstData)) (cx : SCx E), ∀ tr ∈ (C.frameSteps f s cx).trace, calls tr = calls cx.trace
  | [], cx, tr, h => by cases h; rfl
  | x :: xs, cx, tr, h => by
    unfold Compiled.frameSteps at h
    split at h
    · cases h; rfl
    · split at h
      · cases h
        exact callOut_calls _ _
      · rename_i hs
        cases hst : SCx.step (f x) cx with
        | none => rw [hst] at h; cases h
        | some c1 =>
          have h1 := step_calls (hf x (by simpa using hs)) hst
          rw [hst] at h
          cases xs with
          | nil =>
            dsimp only at h
            cases h
            rw [← h1]
            split <;> rfl
          | cons y ys =>
            dsimp only at h
            rw [frameSteps_calls hf (y :: ys) c1.relieve tr h, relieve_trace, h1]

theorem frameSections_calls {C : Compiled} {f : Nat × InstData → TInst E} (hf : Silent C f) :
    ∀ (ss : List (List (Nat × InstData))) (cx : SCx E), ∀ tr ∈ (C.frameSections f ss cx).trace, calls tr = calls cx.trace
  | [], cx, tr, h => by cases h; rfl
  | s :: rest, cx, tr, h => by
    unfold Compiled.frameSections at h
    cases hc : headCheck (s.map f) cx with
    | some e => rw [hc] at h; cases h; rfl
    | none =>
      rw [hc] at h
      dsimp only at h
      have h1 := frameSteps_calls hf s (SCx.head (s.map f) cx)
      revert h h1
      cases C.frameSteps f s (SCx.head (s.map f) cx) with
      | finished c1 =>
        intro h h1
        rw [frameSections_calls hf rest c1 tr h]
        exact h1 _ rfl
      | _ => intro h h1; exact h1 _ h

/-- The events of a program that has not panicked. -/
def COut.trace : COut F → Option (List (Ev (Option F)))
  | .running _ _ cx | .halted _ cx | .invalidJump cx | .stackError _ cx | .badImmediate _ cx => some cx.trace
  | .panic => none

theorem core_trace' (o : COut F) : o.core.trace = o.trace := by cases o <;> rfl

theorem leave_trace {C : Compiled} {k : Nat} {b : CBlock} {cx : SCx (Option F)} :
    ∀ tr ∈ (C.leave k b cx).trace, tr = cx.trace := by
  intro tr h
  unfold Compiled.leave at h
  cases hd : C.prog.insts[b.stop - 1]? with
  | none => rw [hd] at h; cases h
  | some d =>
    rw [hd] at h
    dsimp only at h
    split at h
    · cases h; rfl
    · split at h
      · split at h
        · split at h
          · cases h; rfl
          · cases h; rfl
        · cases h
      · split at h
        · cases h; rfl
        · cases h; rfl

/-- The events of a frame. -/
def Act.trace : Act F → Option (List (Ev (Option F)))
  | .inside _ _ _ _ cx => some cx.trace
  | .outside _ _ _ tr => some tr
  | .done o => o.trace

/-- A step adds to the stacks shown to the caller the one it is left with, if it suspends. -/
def Tells (a : Act F) : Act F → Prop
  | .outside c _ _ tr => ∀ tr0 ∈ a.trace, calls tr = c.stack :: calls tr0
  | .inside _ _ _ _ cx => ∀ tr0 ∈ a.trace, calls cx.trace = calls tr0
  | .done o => ∀ tr ∈ o.trace, ∀ tr0 ∈ a.trace, calls tr = calls tr0

theorem frameStep_calls {C : Compiled} {inspect : Bool} {env : Env F} {junk : Nat → Int → Word} (a : Act F) :
    Tells a (C.frameStep inspect env junk a) := by
  cases a with
  | done o =>
    intro tr h tr0 h0
    change tr ∈ o.trace at h
    change tr0 ∈ o.trace at h0
    rw [Option.mem_def] at h h0
    rw [h] at h0
    cases h0
    rfl
  | outside c k w tr =>
    show Tells _ (match C.enter inspect (junk (k - 1)) (c.push (junk (k - 1)) w) tr with
      | none => Act.done .panic
      | some (i, cx) => .inside true (c.push (junk (k - 1)) w) k i cx)
    have hen : ∀ r, C.enter inspect (junk (k - 1)) (c.push (junk (k - 1)) w) tr = some r → r.2.trace = tr := by
      intro r hr
      unfold Compiled.enter at hr
      dsimp only at hr
      split at hr
      · cases hr; rfl
      · obtain ⟨_, _, rfl⟩ := Option.map_eq_some_iff.1 hr
        rfl
    cases he : C.enter inspect (junk (k - 1)) (c.push (junk (k - 1)) w) tr with
    | none => intro tr h; cases h
    | some r =>
      intro tr0 h0
      cases h0
      rw [hen r he]
  | inside r c k i cx =>
    show Tells _ (C.blockFrom inspect env junk r c k i cx)
    unfold Compiled.blockFrom
    split
    · intro tr h; cases h
    · rename_i b _
      dsimp only
      split
      · intro tr h; cases h
      · have hfs := frameSections_calls (C := C) (f := toT C.code C.ai (actOf C.code C.prog env (k - (i - b.start)) b.start)
          (clobAt junk (k - (i - b.start)) b.start)) plain_toT
          ((splitSections C.spec b.insts).dropWhile fun s => s.head?.map Prod.fst != some i) cx
        revert hfs
        generalize C.frameSections _ _ cx = res
        intro hfs
        cases res with
        | finished c1 =>
          dsimp only
          have hlv := leave_trace (C := C) (k := k - (i - b.start)) (b := b) (cx := c1)
          revert hlv
          generalize C.leave (k - (i - b.start)) b c1 = out
          intro hlv
          have h1 := hfs _ rfl
          cases out with
          | running k1 i1 c2 =>
            intro tr0 h0
            cases h0
            have h2 := hlv _ rfl
            rw [h2, h1]
          | _ =>
            intro tr h tr0 h0
            cases h0
            rw [hlv tr h, h1]
        | fail e c1 => intro tr h tr0 h0; cases h0; cases h; exact hfs _ rfl
        | bad e c1 => intro tr h tr0 h0; cases h0; cases h; exact hfs _ rfl
        | panic => intro tr h; cases h
        | suspended j c1 ws =>
          dsimp only
          split
          · intro tr h; cases h
          · intro tr0 h0
            cases h0
            rw [calls_suspended, hfs _ rfl]

theorem frame_calls {C : Compiled} {inspect : Bool} {env : Env F} {junk : Nat → Int → Word} (fresh buf : Int → Word) :
    ∀ m, ∀ tr ∈ (C.frame inspect env junk fresh buf m).trace, calls tr = C.left inspect env junk fresh buf m
  | 0, tr, h => by
    rw [frame_zero] at h
    cases h
    rfl
  | m + 1, tr, h => by
    have ih := frame_calls (C := C) (inspect := inspect) (env := env) (junk := junk) fresh buf m
    have h1 := frameStep_calls (C := C) (inspect := inspect) (env := env) (junk := junk) (C.frame inspect env junk fresh buf m)
    have hf : C.frameStep inspect env junk (C.frame inspect env junk fresh buf m) =
      C.frame inspect env junk fresh buf (m + 1) := rfl
    rw [hf] at h1
    have hex : ∃ tr0, tr0 ∈ (C.frame inspect env junk fresh buf m).trace := by
      cases ht : (C.frame inspect env junk fresh buf m).trace with
      | some t => exact ⟨t, rfl⟩
      | none =>
        exfalso
        cases hm : C.frame inspect env junk fresh buf m with
        | inside r c k i cx => rw [hm] at ht; cases ht
        | outside c k w t => rw [hm] at ht; cases ht
        | done o =>
          rw [hm] at hf ht
          rw [← hf] at h
          change tr ∈ o.trace at h
          change o.trace = none at ht
          rw [ht] at h
          cases h
    obtain ⟨tr0, h0⟩ := hex
    unfold Compiled.left
    cases hm : C.frame inspect env junk fresh buf (m + 1) with
    | inside r c k i cx => rw [hm] at h h1; cases h; rw [h1 tr0 h0, ih tr0 h0]
    | outside c k w t => rw [hm] at h h1; cases h; dsimp only; rw [h1 tr0 h0, ih tr0 h0]
    | done o => rw [hm] at h h1; rw [h1 tr h tr0 h0, ih tr0 h0]

end Verif
