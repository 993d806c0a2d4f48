import Verif.Lemmas.CallIf
/-!
# C66: calls of compiled code through the interpreter interface
-/

namespace Verif.CallIf

open Spec

variable {L H N R I X F T E D : Type}

/-- A function that logs twice, asks for a new frame, and suspends at resume point 4. -/
def sampleCode : Code Nat (List Nat) Nat Unit :=
  .log (fun _ => 10) fun _ => .step (fun c => { c with gas := ⟨c.gas.remaining - 5, 0⟩ }) fun _ =>
    .log (fun c => c.gas.remaining) fun _ =>
      .step (fun c => { c with nextAction := some (.newFrame 77), resumeAt := 4 }) fun _ => .ret (.other 0)

/-- An interpreter with an action left over from before. -/
def sampleInterp : Interp Nat Unit := ⟨some (.newFrame 99), ⟨100, 0⟩, [1, 2], 0, ()⟩

/-- Where its function starts. -/
def sampleStart : Ctx (List Nat) Nat Unit := ⟨[], ⟨100, 0⟩, none, [1, 2], 0, ()⟩

theorem sample_runs : Runs (fun h l => h ++ [l]) sampleCode sampleStart [10, 95] (.other 0)
    ⟨[10, 95], ⟨95, 0⟩, some (.newFrame 77), [1, 2], 4, ()⟩ :=
  .log (.step (.log (.step (.ret _ _))))

/-- **C66.** The action of a call is the one its function asked for, and otherwise a return with its
result, no output and the gas left; whatever action was left in the interpreter before has no
influence. -/
theorem C66_action (hostLog : H → L → H) (f : Code L H N R) (x : Interp N R) (h : H) (c c' : Ctx H N R)
    (ls : List L) (r : Res) (hc : Fresh x h c) (hr : Runs hostLog f c ls r c')
    (onLog : Option (I → L → I)) (i : I) :
    (callInner hostLog onLog f x h i).1 =
      match c'.nextAction with
      | some a => a
      | none => .ret r [] (gasAfter r c'.gas) := by
  rw [callInner_eq hc hr]
  cases c'.nextAction <;> rfl

example : (callInner (fun h l => h ++ [l]) (none : Option (Unit → Nat → Unit)) sampleCode sampleInterp [] ()).1
    = .newFrame 77 :=
  C66_action _ _ _ _ _ _ _ _ ⟨rfl, rfl, rfl, rfl, rfl, rfl⟩ sample_runs _ _

/-- **C66.** After the call the interpreter holds the gas (none if it ran out), resume point and
resources its function left, and no action; return data is kept unless the function ended with none;
the host has every log. -/
theorem C66_state (hostLog : H → L → H) (f : Code L H N R) (x : Interp N R) (h : H) (c c' : Ctx H N R)
    (ls : List L) (r : Res) (hc : Fresh x h c) (hr : Runs hostLog f c ls r c')
    (onLog : Option (I → L → I)) (i : I) :
    let x' := (callInner hostLog onLog f x h i).2.1
    x'.action = none ∧ x'.gas = gasAfter r c'.gas ∧ x'.pc = c'.resumeAt ∧ x'.rest = c'.rest ∧
    (c'.returnData ≠ [] → x'.returnData = x.returnData) ∧ (c'.returnData = [] → x'.returnData = []) ∧
    (callInner hostLog onLog f x h i).2.2.1 = c'.host := by
  intro x'
  have e : x' = after x r c' := by show (callInner hostLog onLog f x h i).2.1 = _; rw [callInner_eq hc hr]
  rw [e, callInner_eq hc hr]
  refine ⟨rfl, rfl, rfl, rfl, ?_, ?_, rfl⟩
  · intro hd
    show (if c'.returnData.isEmpty then [] else x.returnData) = _
    rw [if_neg (by simpa using hd)]
  · intro hd
    show (if c'.returnData.isEmpty then [] else x.returnData) = _
    rw [if_pos (by simp [hd])]

example : (callInner (fun h l => h ++ [l]) (none : Option (Unit → Nat → Unit)) sampleCode sampleInterp [] ()).2.1.pc
    = 4 :=
  (C66_state _ _ _ _ _ _ _ _ ⟨rfl, rfl, rfl, rfl, rfl, rfl⟩ sample_runs _ _).2.2.1

/-- **C66.** Running a frame under an inspector that leaves results alone is the same as running it
without one. -/
theorem C66_transparent (hostLog : H → L → H) (p : Process H N R X F T E) (ins : Insp L I D T)
    (last : H → Option D) (hp : ∀ i t, (ins.frameEnd i t).2 = t) (f : Code L H N R) (fr : Frame N R X)
    (h : H) (i : I) :
    (inspectFrameRun hostLog p ins last f fr h i).1 = frameRun hostLog p f fr h := by
  obtain ⟨ls, r, c', hr⟩ := runs_total hostLog f (Ctx.ofInterp { fr.interp with action := none } h)
  have hc : Fresh fr.interp h (Ctx.ofInterp { fr.interp with action := none } h) :=
    ⟨rfl, rfl, rfl, rfl, rfl, rfl⟩
  simp only [inspectFrameRun, frameRun]
  rw [callInner_eq hc hr, callInner_eq hc hr]
  simp only
  split
  · simp only [hp]
  · rfl

example : ∀ (i : List (Event Nat Nat Nat)) t, ((recorder (D := Nat)).frameEnd i t).2 = t := fun _ _ => rfl

/-- **C66.** An inspector hears of a frame's run: every log, once and in order; then of a destroyed
contract, only if the function ended that way; and last of the frame's end, exactly if it ended. -/
theorem C66_reports (hostLog : H → L → H) (p : Process H N R X F T E) (last : H → Option D)
    (f : Code L H N R) (fr : Frame N R X) (h : H) (c c' : Ctx H N R) (ls : List L) (r : Res)
    (hc : Fresh fr.interp h c) (hr : Runs hostLog f c ls r c') (i : List (Event L D T)) :
    ∃ ds es, (inspectFrameRun hostLog p recorder last f fr h i).2 = i ++ ls.map .log ++ ds ++ es ∧
      (ds ≠ [] → ∃ o g d, last c'.host = some d ∧ ds = [.destroyed d] ∧
        (callInner hostLog (some recorder.log) f fr.interp h i).1 = .ret .selfDestruct o g) ∧
      (∀ h' fr' t, frameRun hostLog p f fr h = (h', fr', .ok (.result t)) → es = [.frameEnd t] ∧ fr'.finished) ∧
      ((∀ h' fr' t, frameRun hostLog p f fr h ≠ (h', fr', .ok (.result t))) → es = []) := by
  have hl : ∀ (ls : List L) (i : List (Event L D T)), ls.foldl recorder.log i = i ++ ls.map .log := by
    intro ls
    induction ls with
    | nil => simp
    | cons l ls ih => intro i; rw [List.foldl_cons, ih]; simp [recorder]
  refine ⟨(match c'.nextAction.getD (.ret r [] (gasAfter r c'.gas)), last c'.host with
      | .ret .selfDestruct _ _, some d => [.destroyed d] | _, _ => []),
    (match (frameRun hostLog p f fr h).2.2 with | .ok (.result t) => [.frameEnd t] | _ => []), ?_, ?_, ?_, ?_⟩
  · simp only [inspectFrameRun, frameRun]
    rw [callInner_eq hc hr, callInner_eq hc hr]
    simp only [hl]
    have e : noteDestroyed recorder last (c'.nextAction.getD (.ret r [] (gasAfter r c'.gas))) c'.host
          (i ++ ls.map .log) =
        i ++ ls.map .log ++ (match c'.nextAction.getD (.ret r [] (gasAfter r c'.gas)), last c'.host with
          | .ret .selfDestruct _ _, some d => [(.destroyed d : Event L D T)] | _, _ => []) := by
      cases c'.nextAction.getD (.ret r [] (gasAfter r c'.gas)) with
      | newFrame n => simp [noteDestroyed]
      | ret q o g =>
        cases q <;> cases hd : last c'.host <;> simp [noteDestroyed, inspectSelfdestruct, recorder, hd]
    rw [e]
    rcases p c'.host { fr with interp := after fr.interp r c' }
      (c'.nextAction.getD (.ret r [] (gasAfter r c'.gas))) with ⟨h', fr', _ | _ | _⟩ <;> simp [recorder]
  · rw [callInner_eq hc hr]
    simp only
    cases c'.nextAction.getD (.ret r [] (gasAfter r c'.gas)) with
    | newFrame n => simp
    | ret q o g => cases q <;> cases hd : last c'.host <;> simp
  · intro h' fr' t he
    rw [he]
    refine ⟨rfl, ?_⟩
    simp only [frameRun] at he
    rw [callInner_eq hc hr] at he
    simp only at he
    rcases hq : p c'.host { fr with interp := after fr.interp r c' }
      (c'.nextAction.getD (.ret r [] (gasAfter r c'.gas))) with ⟨h'', fr'', _ | _ | _⟩ <;>
      simp only [hq] at he <;> cases he
    rfl
  · intro hn
    split
    · rename_i t ht
      refine absurd ?_ (hn (frameRun hostLog p f fr h).1 (frameRun hostLog p f fr h).2.1 t)
      rw [← ht]
    · rfl

/-- The sample function under a recording inspector. -/
example : (inspectFrameRun (F := Nat) (T := Nat) (E := Unit) (D := Nat) (fun h l => h ++ [l])
    (fun h fr _ => (h, fr, .ok (.result 5))) recorder (fun _ => none) sampleCode
    (⟨sampleInterp, false, ()⟩ : Frame Nat Unit Unit) [] []).2 = [.log 10, .log 95, .frameEnd 5] := by
  decide

/-- **C66, negation for SELFDESTRUCT.** The inspector is told of the last entry of the journal, not of
what the instruction did: if the host records nothing for it (as for a contract naming itself after
Cancun), an earlier transfer is reported as the destruction. Here the journal holds one transfer `7`,
the function only ends with the SELFDESTRUCT result, and `7` is reported. -/
theorem C66_selfdestruct_fails :
    ∃ (f : Code Nat (List Nat) Nat Unit) (fr : Frame Nat Unit Unit) (h : List Nat),
      (∀ c, ∃ ls, Runs (fun h _ => h) f c ls .selfDestruct c) ∧
      (inspectFrameRun (F := Nat) (T := Nat) (E := Unit) (fun h _ => h) (fun h fr _ => (h, fr, .ok (.result 0)))
        recorder List.getLast? f fr h []).2 = [.destroyed 7, .frameEnd 0] :=
  ⟨.ret .selfDestruct, ⟨sampleInterp, false, ()⟩, [7], fun c => ⟨[], .ret _ c⟩, by decide⟩

/-- **C66, partial for SELFDESTRUCT.** If the last thing the host recorded is what the instruction did,
exactly that is reported. Missing: the other case, which is false. -/
theorem C66_selfdestruct_partial (hostLog : H → L → H) (p : Process H N R X F T E) (last : H → Option D)
    (f : Code L H N R) (fr : Frame N R X) (h : H) (c c' : Ctx H N R) (ls : List L)
    (hc : Fresh fr.interp h c) (hr : Runs hostLog f c ls .selfDestruct c') (hn : c'.nextAction = none)
    (d : D) (hd : last c'.host = some d) (i : List (Event L D T)) :
    ∃ es, (inspectFrameRun hostLog p recorder last f fr h i).2 = i ++ ls.map .log ++ .destroyed d :: es ∧
      ∀ e, .destroyed e ∉ es := by
  have hl : ∀ (ls : List L) (i : List (Event L D T)), ls.foldl recorder.log i = i ++ ls.map .log := by
    intro ls
    induction ls with
    | nil => simp
    | cons l ls ih => intro i; rw [List.foldl_cons, ih]; simp [recorder]
  simp only [inspectFrameRun]
  rw [callInner_eq hc hr, hn]
  simp only [hl, Option.getD_none, noteDestroyed, inspectSelfdestruct, hd]
  split
  · rename_i t ht
    exact ⟨[.frameEnd t], by simp [recorder], by simp⟩
  · exact ⟨[], by simp [recorder], by simp⟩

/-- A function that records its destruction. -/
example : (inspectFrameRun (F := Nat) (T := Nat) (E := Unit) (fun h _ => h) (fun h fr _ => (h, fr, .ok (.result 0)))
    recorder List.getLast?
    (.step (fun c => { c with host := c.host ++ [8] }) fun _ => .ret .selfDestruct : Code Nat (List Nat) Nat Unit)
    (⟨sampleInterp, false, ()⟩ : Frame Nat Unit Unit) [7] []).2 = [.destroyed 8, .frameEnd 0] := by decide

end Verif.CallIf
