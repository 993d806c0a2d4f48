import Verif.Lemmas.FlowParse
/-!
# Running concrete executions

An evaluator for a few opcodes, used to exhibit concrete executions of the specification.
-/

namespace Verif
open Spec

/-- One step of a concrete execution in which CALLDATASIZE answers `ans`: PUSH, POP, JUMPDEST,
CALLDATASIZE, JUMP and JUMPI. -/
def demoStep (code : Code) (insts : List InstData) (ans : Word) (s : Nat × List Word) :
    Option (Nat × List Word) :=
  match insts[s.1]? with
  | none => none
  | some d =>
    if d.flags.disabled || d.flags.unknown then none
    else if 0x5f ≤ d.opcode.toNat ∧ d.opcode.toNat ≤ 0x7f then some (s.1 + 1, code.imm s.1 :: s.2)
    else if d.opcode.toNat = 0x50 ∧ d.stackIo = (1, 0) then
      match s.2 with
      | [] => none
      | _ :: r => some (s.1 + 1, r)
    else if d.opcode.toNat = 0x5b ∧ d.stackIo = (0, 0) then some (s.1 + 1, s.2)
    else if d.opcode.toNat = 0x36 ∧ d.stackIo = (0, 1) then some (s.1 + 1, ans :: s.2)
    else if d.opcode.toNat = 0x56 then
      match s.2 with
      | [] => none
      | w :: r => (code.target w).map fun t => (t, r)
    else if d.opcode.toNat = 0x57 then
      match s.2 with
      | w :: b :: r => if b = 0#256 then some (s.1 + 1, r) else (code.target w).map fun t => (t, r)
      | _ => none
    else none

theorem demoStep_step {code : Code} {insts : List InstData} {ans : Word} {s s' : Nat × List Word}
    (h : demoStep code insts ans s = some s') : Step code insts s.1 s.2 s'.1 s'.2 := by
  unfold demoStep at h
  cases hd : insts[s.1]? with
  | none => rw [hd] at h; cases h
  | some d =>
    rw [hd] at h
    dsimp only at h
    have nh : ∀ k : Nat, d.opcode.toNat = k → k ∉ [0x00, 0xf3, 0xfd, 0xfe, 0xff] →
        (d.flags.disabled || d.flags.unknown) = false → ¬ Halts d := by
      intro k hk hn hf hh
      rw [Bool.or_eq_false_iff] at hf
      rcases hh with h | h | h
      · rw [hf.1] at h; cases h
      · rw [hf.2] at h; cases h
      · rw [hk] at h; exact hn h
    cases hf : (d.flags.disabled || d.flags.unknown) with
    | true => rw [hf] at h; cases h
    | false =>
      rw [hf] at h
      rw [if_neg (by simp)] at h
      by_cases h1 : 0x5f ≤ d.opcode.toNat ∧ d.opcode.toNat ≤ 0x7f
      · rw [if_pos h1] at h; cases h
        refine .seq hd (nh _ rfl ?_ hf) (by omega) (by omega) (.push _ h1.1 h1.2)
        simp only [List.mem_cons, List.not_mem_nil, or_false]; omega
      · rw [if_neg h1] at h
        by_cases h2 : d.opcode.toNat = 0x50 ∧ d.stackIo = (1, 0)
        · rw [if_pos h2] at h
          cases hs : s.2 with
          | nil => rw [hs] at h; cases h
          | cons w r =>
            rw [hs] at h; cases h
            refine .seq hd (nh _ h2.1 (by decide) hf) (by omega) (by omega) ?_
            rw [h2.2, h2.1]
            exact .other [w] [] r (by decide) (by decide) rfl rfl (by simp [evalOp])
        · rw [if_neg h2] at h
          by_cases h3 : d.opcode.toNat = 0x5b ∧ d.stackIo = (0, 0)
          · rw [if_pos h3] at h; cases h
            refine .seq hd (nh _ h3.1 (by decide) hf) (by omega) (by omega) ?_
            rw [h3.2, h3.1]
            exact .other [] [] s.2 (by decide) (by decide) rfl rfl (by simp [evalOp])
          · rw [if_neg h3] at h
            by_cases h4 : d.opcode.toNat = 0x36 ∧ d.stackIo = (0, 1)
            · rw [if_pos h4] at h; cases h
              refine .seq hd (nh _ h4.1 (by decide) hf) (by omega) (by omega) ?_
              rw [h4.2, h4.1]
              exact .other [] [ans] s.2 (by decide) (by decide) rfl rfl (by simp [evalOp])
            · rw [if_neg h4] at h
              by_cases h5 : d.opcode.toNat = 0x56
              · rw [if_pos h5] at h
                cases hs : s.2 with
                | nil => rw [hs] at h; cases h
                | cons w r =>
                  rw [hs] at h
                  obtain ⟨t, ht, he⟩ := Option.map_eq_some_iff.1 h
                  cases he
                  exact .jump hd (nh _ h5 (by decide) hf) h5 ht
              · rw [if_neg h5] at h
                by_cases h6 : d.opcode.toNat = 0x57
                · rw [if_pos h6] at h
                  match hs : s.2 with
                  | [] => rw [hs] at h; cases h
                  | [_] => rw [hs] at h; cases h
                  | w :: b :: r =>
                    rw [hs] at h
                    dsimp only at h
                    by_cases hb : b = 0#256
                    · rw [if_pos hb] at h; cases h
                      rw [hb]
                      exact .fall hd (nh _ h6 (by decide) hf) h6
                    · rw [if_neg hb] at h
                      obtain ⟨t, ht, he⟩ := Option.map_eq_some_iff.1 h
                      cases he
                      exact .taken hd (nh _ h6 (by decide) hf) h6 hb ht
                · rw [if_neg h6] at h; cases h

/-- Run `n` steps, checking `ok` at every position. -/
def demoRun (code : Code) (insts : List InstData) (ans : Word) (ok : Nat → List Word → Bool) :
    Nat → Nat × List Word → Option (Nat × List Word)
  | 0, s => some s
  | n + 1, s => (demoStep code insts ans s).bind fun s' =>
      if ok s'.1 s'.2 then demoRun code insts ans ok n s' else none

theorem demoRun_reach {code : Code} {insts : List InstData} {ans : Word} {okb : Nat → List Word → Bool}
    {ok : Nat → List Word → Prop} (hok : ∀ i c, okb i c = true → ok i c) (n : Nat) :
    ∀ s s', Reach code insts ok s.1 s.2 → demoRun code insts ans okb n s = some s' →
      Reach code insts ok s'.1 s'.2 := by
  induction n with
  | zero => intro s s' hr h; cases h; exact hr
  | succ n ih =>
    intro s s' hr h
    unfold demoRun at h
    obtain ⟨s1, h1, h2⟩ := Option.bind_eq_some_iff.1 h
    by_cases hb : okb s1.1 s1.2 = true
    · rw [if_pos hb] at h2
      exact ih s1 s' (.step hr (demoStep_step h1) (hok _ _ hb)) h2
    · rw [if_neg hb] at h2; cases h2

/-- A run checked to stay within 64 words is an execution the theorems speak about. -/
theorem demo_shallow {code : Code} {insts : List InstData} {ans : Word} {n : Nat} {s : Nat × List Word}
    (h : demoRun code insts ans (fun _ c => decide (c.length ≤ 64)) n (0, []) = some s) :
    Reach code insts (shallow insts) s.1 s.2 :=
  demoRun_reach (ok := shallow insts) (fun _ _ hb _ => of_decide_eq_true hb) n (0, []) s
    (.start (fun _ => by simp)) h

theorem demo_always {code : Code} {insts : List InstData} {ans : Word} {n : Nat} {s : Nat × List Word}
    (h : demoRun code insts ans (fun _ _ => true) n (0, []) = some s) : Reach code insts always s.1 s.2 :=
  demoRun_reach (ok := always) (fun _ _ _ => trivial) n (0, []) s (.start trivial) h

end Verif
