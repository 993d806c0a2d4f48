import Verif.Lemmas.WholeLower
import Verif.Lemmas.FlowSem
/-!
# One instruction of a whole program
-/

namespace Verif
open Spec
variable {F : Type}

theorem shown_append (a b : List (Ev (Option F))) : shown (a ++ b) = shown a ++ shown b := by
  unfold shown; rw [List.filterMap_append]

theorem shown_visible (a : List (Ev (Option F))) : shown (visible a) = shown a := by
  induction a with
  | nil => rfl
  | cons e a ih =>
    unfold visible at ih ⊢
    rw [List.filter_cons]
    match e with
    | .ran none =>
      simp only [Bool.false_eq_true, if_false]
      rw [ih]; rfl
    | .ran (some f) =>
      simp only [if_true]
      unfold shown at ih ⊢
      simp only [List.filterMap_cons, ih]
    | .suspended s =>
      simp only [if_true]
      unfold shown at ih ⊢
      simp only [List.filterMap_cons, ih]
    | .branched x y =>
      simp only [if_true]
      unfold shown at ih ⊢
      simp only [List.filterMap_cons, ih]

/-- An instruction's code does what the EVM does: from stack `c` to `c'` with observations `obs`. -/
structure Fit (t : TInst (Option F)) (c c' : List Word) (obs : List (Obs F)) : Prop where
  ok : Ok t c
  next : Spec.next t c = c'
  obs : shown (events t c) = obs

section act
variable {code : Code} {p : Prog} {env : Env F} {k s i : Nat} {d : InstData} {args : List Word}

theorem actOf_snd : (actOf code p env k s i args).2 = (env (k + (i - s)) i args).2 := by
  unfold actOf; split <;> rfl

theorem actOf_push (hd : p.insts[i]? = some d) (h : 0x5f ≤ d.opcode.toNat ∧ d.opcode.toNat ≤ 0x7f) :
    (actOf code p env k s i args).1 = [code.imm i] := by
  unfold actOf ownLogic
  rw [hd, Option.bind_some, if_pos h]

theorem actOf_pure (hd : p.insts[i]? = some d) {w : Word}
    (h : evalOp code.codeLen d.data d.opcode.toNat args = some w) :
    (actOf code p env k s i args).1 = [w] := by
  unfold actOf
  rw [hd, Option.bind_some, ownLogic_eq (by have := (evalOp_table h).2.1; omega), h]

theorem actOf_env (hd : p.insts[i]? = some d) (hp : ¬ (0x5f ≤ d.opcode.toNat ∧ d.opcode.toNat ≤ 0x7f))
    (h : evalOp code.codeLen d.data d.opcode.toNat args = none) :
    actOf code p env k s i args = env (k + (i - s)) i args := by
  unfold actOf
  rw [hd, Option.bind_some, ownLogic_eq hp, h]

theorem actOf_len {ai : AIState} (hw : WorldX ai p.insts env) (hd : p.insts[i]? = some d) (hstd : StdIo d) :
    (actOf code p env k s i args).1.length = d.stackIo.2 := by
  by_cases hp : 0x5f ≤ d.opcode.toNat ∧ d.opcode.toNat ≤ 0x7f
  · rw [actOf_push hd hp, hstd (by simp only [List.mem_cons, List.not_mem_nil, or_false]; omega), (push_table _ hp).1]
    rfl
  cases h : evalOp code.codeLen d.data d.opcode.toNat args with
  | some w =>
    obtain ⟨e1, e2, _⟩ := evalOp_table h
    rw [actOf_pure hd h, hstd (by simp only [List.mem_cons, List.not_mem_nil, or_false]; omega), e1]
    rfl
  | none =>
    rw [actOf_env hd hp h]
    exact hw.len _ _ _ _ hd

end act

theorem suspend_iff (d : InstData) : d.maySuspend = callOp d.opcode.toNat := by
  have : ∀ o : UInt8, [op.CALL, op.CALLCODE, op.DELEGATECALL, op.STATICCALL, op.CREATE, op.CREATE2].contains o =
      callOp o.toNat := by decide +kernel
  exact this d.opcode

theorem silent_table : ∀ q ∈ pureOps, mute q.1 = true ∨ q.1 = 0x0a := by decide +kernel

theorem silent_pure {cl pc : Nat} {o : UInt8} {args : List Word} {w : Word}
    (h : evalOp cl pc o.toNat args = some w) : mute o.toNat = true ∨ o = op.EXP :=
  (silent_table (o.toNat, args.length) (evalOp_mem h)).imp id (toNat_eq (k := 0x0a) (by omega))

theorem nop_table (o : UInt8) (h : o = op.JUMPDEST ∨ o = op.STOP ∨ o = op.INVALID) :
    tableStackIo o = (0, 0) ∧ mute o.toNat = true := by
  rcases h with rfl | rfl | rfl <;> exact ⟨rfl, rfl⟩

theorem load_table (o : UInt8) (h : o = op.CALLDATALOAD ∨ o = op.SLOAD) : tableStackIo o = (1, 1) := by
  rcases h with rfl | rfl <;> rfl

theorem keccak_none (cl pc : Nat) (args : List Word) : evalOp cl pc 0x20 args = none := by
  match args with
  | [] => rfl
  | [_] => rfl
  | [_, _] => rfl
  | [_, _, _] => rfl
  | _ :: _ :: _ :: _ :: _ => rfl

section step
variable {code : Code} {p : Prog} {ai : AIState} {env : Env F} {clob : Nat → Int → Word} {k s i : Nat}
  {d : InstData} {c c' : List Word}

/-- The instructions that are neither jumps, calls nor shuffles. -/
theorem plain_fit (hd : p.insts[i]? = some d) (hoff : (d.flags.disabled || d.flags.unknown) = false)
    (hno : d.flags.noop = false) (hio : d.stackIo = tableStackIo d.opcode) (hstd : StdIo d)
    (hlow : lowerOf code ai i d = lowerPlain d.opcode d.stackIo.1 (ai.constOperand i))
    (hns : d.maySuspend = false) (hw : WorldX ai p.insts env) (hlen : d.stackIo.1 ≤ c.length)
    (hsnap : ∀ q w, q < d.stackIo.1 → ai.constOperand i q = some w → c[q]? = some w)
    (hco : ∀ w, 0 < d.stackIo.2 → ai.constOutput i = some w → d.stackIo.2 = 1 ∧
      (actOf code p env k s i (c.take d.stackIo.1)).1.head? = some w ∧
      (env (k + (i - s)) i (c.take d.stackIo.1)).2 = none) :
    Fit (toT code ai (actOf code p env k s) clob (i, d)) c
      ((actOf code p env k s i (c.take d.stackIo.1)).1 ++ c.drop d.stackIo.1)
      (observed env (k + (i - s)) i d c) := by
  have hcase := plainCase d.opcode d.stackIo.1 (ai.constOperand i)
  rw [← hlow] at hcase
  have htl : (c.take d.stackIo.1).length = d.stackIo.1 := by rw [List.length_take]; omega
  have hsnap' : ∀ q w, q < d.stackIo.1 → ai.constOperand i q = some w → (c.take d.stackIo.1)[q]? = some w := by
    intro q w hq hc
    rw [List.getElem?_take, if_pos hq]; exact hsnap q w hq hc
  have hal := actOf_len (code := code) (k := k) (s := s) (args := c.take d.stackIo.1) hw hd hstd
  have hpush : pushed (toT code ai (actOf code p env k s) clob (i, d)) (c.take d.stackIo.1) =
      (actOf code p env k s i (c.take d.stackIo.1)).1 := by
    unfold pushed toT
    dsimp only
    generalize lowerOf code ai i d = L at hcase ⊢
    cases hcase with
    | nop h =>
      dsimp only
      rw [hio, (nop_table _ h).1] at hal
      rw [hio, (nop_table _ h).1]
      exact (List.length_eq_zero_iff.1 hal).symm
    | _ => rfl
  have hobs : observed env (k + (i - s)) i d c =
      (env (k + (i - s)) i (c.take d.stackIo.1)).2.toList.map .effect := by
    unfold observed
    rw [hoff, if_neg (by simp), ← suspend_iff, hns]; rfl
  refine ⟨⟨hlen, ?_, hsnap, ?_, ?_, ?_⟩, ?_, ?_⟩
  · show (pushed _ (c.take d.stackIo.1)).length = d.stackIo.2
    rw [hpush]; exact hal
  · intro w h0 hc
    show (pushed _ (c.take d.stackIo.1)).head? = _ ∧ _
    rw [hpush]
    obtain ⟨h1, h2, _⟩ := hco w h0 hc
    refine ⟨h2, ?_, .inl h1⟩
    show lowerOf code ai i d ≠ .suspend
    intro h; rw [h] at hcase; cases hcase
  · intro h
    change d.flags.noop = true at h
    rw [hno] at h; cases h
  · unfold toT
    dsimp only
    generalize lowerOf code ai i d = L at hcase ⊢
    cases hcase with
    | fold w h =>
      exact actOf_pure hd (peephole_const h htl hsnap' _ _)
    | expFold w h =>
      have hdom := peephole_dom h
      have h2 : d.stackIo.1 = 2 := by
        rcases hdom.2.1 with h2 | ⟨_, h2⟩
        · exact h2
        · cases h2
      refine ⟨h2, hdom.2.2 rfl, ?_⟩
      rw [h2] at htl hsnap' h
      exact actOf_pure hd (peephole_const h htl hsnap' _ _)
    | expInline h => exact h
    | loadConst h hc =>
      have := load_table _ h
      rw [hio, this]; exact ⟨rfl, rfl, hc⟩
    | keccak off len h hc =>
      have ht : d.stackIo = (2, 1) := by rw [hio, h]; rfl
      refine ⟨by rw [ht], by rw [ht], ?_⟩
      rw [ht] at hsnap' htl
      obtain ⟨h1, h2⟩ := constMem_cases hc
      have ho : d.opcode.toNat = 0x20 := by rw [h]; rfl
      have hev : ∀ a, actOf code p env k s i a = env (k + (i - s)) i a := by
        intro a
        refine actOf_env hd (by omega) ?_
        rw [ho]; exact keccak_none _ _ _
      rw [hev, hev]
      match hcc : c.take 2, htl with
      | [x, y], _ =>
        rw [hcc] at hsnap'
        have hy := hsnap' 1 len (by simp) h1
        simp only [List.getElem?_cons_succ, List.getElem?_cons_zero, Option.some.injEq] at hy
        subst hy
        rcases h2 with h2 | h2
        · have hx := hsnap' 0 off (by simp) h2
          simp only [List.getElem?_cons_zero, Option.some.injEq] at hx
          rw [hx]
        · subst h2
          exact hw.hash _ _ _ _ _ hd ho
    | top h =>
      have := top_table _ h
      show d.stackIo.1 = 0
      rw [hio, this]
    | builtin => trivial
    | nop h =>
      show d.stackIo.1 = 0
      rw [hio, (nop_table _ h).1]
    | inline => trivial
  · show pushed _ (c.take d.stackIo.1) ++ c.drop d.stackIo.1 = _
    rw [hpush]
  · rw [hobs]
    unfold events
    split
    · rename_i hcomp
      have hran : shown [Ev.ran (actOf code p env k s i (c.take d.stackIo.1)).2] =
          (env (k + (i - s)) i (c.take d.stackIo.1)).2.toList.map Obs.effect := by
        rw [actOf_snd]
        cases (env (k + (i - s)) i (c.take d.stackIo.1)).2 <;> rfl
      have hq : mute d.opcode.toNat = true → shown ([] : List (Ev (Option F))) =
          (env (k + (i - s)) i (c.take d.stackIo.1)).2.toList.map Obs.effect := by
        intro hs
        rw [hw.quiet _ _ _ _ hd hs]; rfl
      unfold toT
      dsimp only
      generalize lowerOf code ai i d = L at hcase ⊢
      cases hcase with
      | nop h => exact hq (nop_table _ h).2
      | fold w h =>
        rcases (peephole_dom h).1 with h1 | ⟨h1, h2⟩
        · exact hq h1
        · rw [hw.exp _ _ _ _ hd h1 ?_]; rfl
          unfold expPaid expRuntimeCharge
          split
          · rfl
          · rw [h2, h1] at h
            change tryPeephole op.EXP [ai.constOperand i 0, ai.constOperand i 1] [none, none] = _ at h
            rw [h]
      | _ => exact hran
    · rename_i hcomp
      have : 0 < d.stackIo.2 ∧ (ai.constOutput i).isSome = true := by
        unfold compiled toT at hcomp
        dsimp only at hcomp
        rw [hno] at hcomp
        simp only [Bool.not_false, Bool.true_and, Bool.not_eq_true', Bool.not_eq_true, Bool.not_eq_false, Bool.and_eq_true, decide_eq_true_eq] at hcomp
        exact hcomp
      obtain ⟨w, hw'⟩ := Option.isSome_iff_exists.1 this.2
      rw [(hco w this.1 hw').2.2]; rfl

end step

theorem exch_list (q m r : List Word) (a b : Word) :
    (((q ++ a :: m ++ b :: r).take (q.length + (m.length + 1) + 1)).set q.length
        (((q ++ a :: m ++ b :: r).take (q.length + (m.length + 1) + 1)).getD (q.length + (m.length + 1)) 0)).set
        (q.length + (m.length + 1))
        (((q ++ a :: m ++ b :: r).take (q.length + (m.length + 1) + 1)).getD q.length 0) ++
      (q ++ a :: m ++ b :: r).drop (q.length + (m.length + 1) + 1) = q ++ b :: m ++ a :: r := by
  have e : q ++ a :: m ++ b :: r = (q ++ a :: m ++ [b]) ++ r := by simp
  have hl : q.length + (m.length + 1) + 1 = (q ++ a :: m ++ [b]).length := by simp; omega
  rw [e, hl, List.take_left', List.drop_left']
  · have g1 : (q ++ a :: m ++ [b]).getD (q.length + (m.length + 1)) 0 = b := by
      rw [List.getD_eq_getElem?_getD, List.getElem?_append_right (by simp)]
      simp
    have g2 : (q ++ a :: m ++ [b]).getD q.length 0 = a := by
      rw [List.getD_eq_getElem?_getD, List.append_assoc, List.getElem?_append_right (by simp)]
      simp
    rw [g1, g2]
    have s1 : (q ++ a :: m ++ [b]).set q.length b = q ++ b :: m ++ [b] := by
      rw [List.append_assoc, List.set_append_right _ _ (by simp)]
      simp
    have s2 : (q ++ b :: m ++ [b]).set (q.length + (m.length + 1)) a = q ++ b :: m ++ [a] := by
      rw [List.set_append_right _ _ (by simp)]
      simp
    rw [s1, s2]
    simp
  · rfl
  · rfl

section step
variable {code : Code} {p : Prog} {ai : AIState} {env : Env F} {clob : Nat → Int → Word} {k s i : Nat}
  {d : InstData} {c c' : List Word}

theorem observed_silent (hd : p.insts[i]? = some d) (hw : WorldX ai p.insts env) (hs : mute d.opcode.toNat = true)
    (hc : callOp d.opcode.toNat = false) : observed env k i d c = [] := by
  unfold observed
  rw [hc, hw.quiet _ _ _ _ hd hs]
  split <;> rfl

theorem shuffle_silent (o : UInt8) (h : (0x80 ≤ o.toNat ∧ o.toNat ≤ 0x9f) ∨ o.toNat = 0xe6 ∨
    o.toNat = 0xe7 ∨ o.toNat = 0xe8 ∨ o.toNat = 0x50) : mute o.toNat = true ∧ callOp o.toNat = false := by
  revert o; decide +kernel

/-- DUP and DUPN. -/
theorem dup_fit (hd : p.insts[i]? = some d) (hno : d.flags.noop = false) (hw : WorldX ai p.insts env) {n : Nat} {w : Word}
    (hn : 1 ≤ n) (hio : d.stackIo = (n, n + 1)) (hlow : lowerOf code ai i d = .dup n)
    (hsil : mute d.opcode.toNat = true ∧ callOp d.opcode.toNat = false) (hwc : c[n - 1]? = some w)
    (hsnap : ∀ q w, q < d.stackIo.1 → ai.constOperand i q = some w → c[q]? = some w)
    (hco : ∀ v, ai.constOutput i = some v → w = v) :
    Fit (toT code ai (actOf code p env k s) clob (i, d)) c (w :: c) (observed env (k + (i - s)) i d c) := by
  have hl := (List.getElem?_eq_some_iff.1 hwc).1
  have hpush : pushed (toT code ai (actOf code p env k s) clob (i, d)) (c.take n) = w :: c.take n := by
    unfold pushed toT
    dsimp only
    rw [hlow]
    dsimp only
    rw [List.getD_eq_getElem?_getD, List.getElem?_take, if_pos (by omega), hwc]; rfl
  have hi : (toT code ai (actOf code p env k s) clob (i, d)).inp = n := by
    show d.stackIo.1 = n; rw [hio]
  refine ⟨⟨by rw [hi]; omega, ?_, hsnap, ?_, ?_, ?_⟩, ?_, ?_⟩
  · rw [hi, hpush]
    show (w :: c.take n).length = d.stackIo.2
    rw [hio, List.length_cons, List.length_take]; dsimp only; omega
  · intro v _ hv
    rw [hi, hpush]
    refine ⟨by rw [hco v hv]; rfl, ?_, .inr ⟨n, hlow⟩⟩
    show lowerOf code ai i d ≠ .suspend
    rw [hlow]; simp
  · intro h
    change d.flags.noop = true at h
    rw [hno] at h; cases h
  · unfold toT; dsimp only; rw [hlow]; exact ⟨hn, by rw [hio]⟩
  · unfold Spec.next
    rw [hi, hpush, List.cons_append, List.take_append_drop]
  · rw [observed_silent hd hw hsil.1 hsil.2]
    unfold events toT
    dsimp only
    rw [hlow]
    split <;> rfl

/-- SWAP, SWAPN and EXCHANGE. -/
theorem exchange_fit (hd : p.insts[i]? = some d) (hno : d.flags.noop = false) (hw : WorldX ai p.insts env)
    {q m r : List Word} {a b : Word} (hio : d.stackIo = (q.length + (m.length + 1) + 1, q.length + (m.length + 1) + 1))
    (hlow : lowerOf code ai i d = .exchange q.length (m.length + 1))
    (hsil : mute d.opcode.toNat = true ∧ callOp d.opcode.toNat = false) (hc : c = q ++ a :: m ++ b :: r)
    (hsnap : ∀ q w, q < d.stackIo.1 → ai.constOperand i q = some w → c[q]? = some w)
    (hco : ai.constOutput i = none) :
    Fit (toT code ai (actOf code p env k s) clob (i, d)) c (q ++ b :: m ++ a :: r)
      (observed env (k + (i - s)) i d c) := by
  have hi : (toT code ai (actOf code p env k s) clob (i, d)).inp = q.length + (m.length + 1) + 1 := by
    show d.stackIo.1 = _; rw [hio]
  have hlen : q.length + (m.length + 1) + 1 ≤ c.length := by
    rw [hc]; simp only [List.length_append, List.length_cons]; omega
  refine ⟨⟨by rw [hi]; omega, ?_, hsnap, ?_, ?_, ?_⟩, ?_, ?_⟩
  · rw [hi]
    unfold pushed toT
    dsimp only
    rw [hlow]
    dsimp only
    rw [List.length_set, List.length_set, List.length_take, hio]
    dsimp only; omega
  · intro v _ hv
    change ai.constOutput i = some v at hv
    rw [hco] at hv; cases hv
  · intro h
    change d.flags.noop = true at h
    rw [hno] at h; cases h
  · unfold toT; dsimp only; rw [hlow]; exact ⟨by omega, by rw [hio]⟩
  · unfold Spec.next
    rw [hi]
    unfold pushed toT
    dsimp only
    rw [hlow, hc]
    exact exch_list q m r a b
  · rw [observed_silent hd hw hsil.1 hsil.2]
    unfold events toT
    dsimp only
    rw [hlow]
    split <;> rfl

/-- POP. -/
theorem pop_fit (hd : p.insts[i]? = some d) (hno : d.flags.noop = false) (hw : WorldX ai p.insts env)
    (hio : d.stackIo = (1, 0)) (hlow : lowerOf code ai i d = .popIgnore)
    (hsil : mute d.opcode.toNat = true ∧ callOp d.opcode.toNat = false) (hlen : 1 ≤ c.length)
    (hsnap : ∀ q w, q < d.stackIo.1 → ai.constOperand i q = some w → c[q]? = some w) :
    Fit (toT code ai (actOf code p env k s) clob (i, d)) c (c.drop 1) (observed env (k + (i - s)) i d c) := by
  have hi : (toT code ai (actOf code p env k s) clob (i, d)).inp = 1 := by show d.stackIo.1 = _; rw [hio]
  have ho : (toT code ai (actOf code p env k s) clob (i, d)).out = 0 := by show d.stackIo.2 = _; rw [hio]
  refine ⟨⟨by rw [hi]; exact hlen, ?_, hsnap, ?_, ?_, ?_⟩, ?_, ?_⟩
  · rw [ho]; unfold pushed toT; dsimp only; rw [hlow]; rfl
  · intro v h; rw [ho] at h; omega
  · intro h
    change d.flags.noop = true at h
    rw [hno] at h; cases h
  · unfold toT; dsimp only; rw [hlow]; trivial
  · unfold Spec.next
    rw [hi]
    unfold pushed toT
    dsimp only
    rw [hlow]; rfl
  · rw [observed_silent hd hw hsil.1 hsil.2]
    unfold events toT
    dsimp only
    rw [hlow]
    split <;> rfl

/-- Jumps. -/
theorem jump_fit (hd : p.insts[i]? = some d) (hno : d.flags.noop = false) (hw : WorldX ai p.insts env)
    (hj : d.isJump = true) {x y : Bool} (hlow : lowerOf code ai i d = .branch x (d.opcode == op.JUMPI) y)
    (hio : d.stackIo = if d.opcode == op.JUMPI then (2, 0) else (1, 0)) (hlen : d.stackIo.1 ≤ c.length)
    (hsnap : ∀ q w, q < d.stackIo.1 → ai.constOperand i q = some w → c[q]? = some w) :
    Fit (toT code ai (actOf code p env k s) clob (i, d)) c (c.drop d.stackIo.1)
      (observed env (k + (i - s)) i d c) := by
  have ho : (toT code ai (actOf code p env k s) clob (i, d)).out = 0 := by
    show d.stackIo.2 = _; rw [hio]; split <;> rfl
  refine ⟨⟨hlen, ?_, hsnap, ?_, ?_, ?_⟩, ?_, ?_⟩
  · rw [ho]; unfold pushed toT; dsimp only; rw [hlow]; rfl
  · intro v h; rw [ho] at h; omega
  · intro h
    change d.flags.noop = true at h
    rw [hno] at h; cases h
  · unfold toT; dsimp only; rw [hlow]; dsimp only; rw [hio]; split <;> rfl
  · unfold Spec.next
    unfold pushed toT
    dsimp only
    rw [hlow]; rfl
  · have hsil : mute d.opcode.toNat = true ∧ callOp d.opcode.toNat = false := by
      unfold InstData.isJump at hj
      simp only [Bool.or_eq_true, beq_iff_eq] at hj
      rcases hj with h | h <;> rw [h] <;> exact ⟨rfl, rfl⟩
    rw [observed_silent hd hw hsil.1 hsil.2]
    unfold events toT
    dsimp only
    rw [hlow]
    split <;> rfl

/-- Calls and creations. -/
theorem suspend_fit (hd : p.insts[i]? = some d) (hoff : (d.flags.disabled || d.flags.unknown) = false)
    (hno : d.flags.noop = false) (hstd : StdIo d) (hw : WorldX ai p.insts env)
    (hs : d.maySuspend = true) (hlow : lowerOf code ai i d = .suspend) (hout : d.stackIo.2 = 1)
    (hlen : d.stackIo.1 ≤ c.length)
    (hsnap : ∀ q w, q < d.stackIo.1 → ai.constOperand i q = some w → c[q]? = some w)
    (hco : ai.constOutput i = none) :
    Fit (toT code ai (actOf code p env k s) clob (i, d)) c
      ((actOf code p env k s i (c.take d.stackIo.1)).1 ++ c.drop d.stackIo.1)
      (observed env (k + (i - s)) i d c) := by
  have hpush : pushed (toT code ai (actOf code p env k s) clob (i, d)) (c.take d.stackIo.1) =
      (actOf code p env k s i (c.take d.stackIo.1)).1 := by
    unfold pushed toT; dsimp only; rw [hlow]
  refine ⟨⟨hlen, ?_, hsnap, ?_, ?_, ?_⟩, ?_, ?_⟩
  · show (pushed _ (c.take d.stackIo.1)).length = d.stackIo.2
    rw [hpush]; exact actOf_len hw hd hstd
  · intro v _ hv
    change ai.constOutput i = some v at hv
    rw [hco] at hv; cases hv
  · intro h
    change d.flags.noop = true at h
    rw [hno] at h; cases h
  · unfold toT; dsimp only; rw [hlow]; exact hout
  · show pushed _ (c.take d.stackIo.1) ++ c.drop d.stackIo.1 = _
    rw [hpush]
  · have hcomp : compiled (toT code ai (actOf code p env k s) clob (i, d)) = true := by
      unfold compiled toT
      dsimp only
      rw [hno, hco]; simp
    unfold events
    rw [if_pos hcomp]
    unfold toT observed
    dsimp only
    rw [hlow, hoff, if_neg (by simp), ← suspend_iff, hs, if_pos rfl]
    dsimp only
    rw [actOf_snd]
    cases (env (k + (i - s)) i (c.take d.stackIo.1)).2 <;> rfl

end step

end Verif
