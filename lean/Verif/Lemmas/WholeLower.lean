import Verif.Spec.Whole
import Verif.Model.WholeGas
import Verif.Lemmas.Dse
import Verif.Props.Arith
/-!
# What an instruction's code computes
-/

namespace Verif
open Spec

/-- Silent instructions other than EXP. -/
def mute (o : Nat) : Bool := silent o && o != 0x0a

/-- What is needed of the world: as `World`, but an EXP may have an effect where its code runs. -/
structure WorldX {F : Type} (ai : AIState) (insts : List InstData) (env : Env F) : Prop where
  len : ∀ k i d args, insts[i]? = some d → (env k i args).1.length = d.stackIo.2
  quiet : ∀ k i d args, insts[i]? = some d → mute d.opcode.toNat = true → (env k i args).2 = none
  exp : ∀ k i d args, insts[i]? = some d → d.opcode = op.EXP → expPaid ai i = false → (env k i args).2 = none
  hash : ∀ k i d x y, insts[i]? = some d → d.opcode.toNat = 0x20 → env k i [x, 0] = env k i [y, 0]

theorem Spec.World.x {F : Type} {insts : List InstData} {env : Env F} (h : World insts env) (ai : AIState) :
    WorldX ai insts env := by
  refine ⟨h.len, fun k i d args hd hm => h.quiet k i d args hd ?_, fun k i d args hd ho _ => h.quiet k i d args hd ?_, h.hash⟩
  · unfold mute at hm
    simp only [Bool.and_eq_true] at hm
    exact hm.1
  · rw [ho]; rfl

theorem stackOnly_mute (o : UInt8) (h : stackOnly o.toNat = true) : mute o.toNat = true := by
  revert o; decide +kernel

/-! ## Own logic -/

theorem ownLogic_eq {code : Code} {i : Nat} {d : InstData} {args : List Word}
    (hp : ¬ (0x5f ≤ d.opcode.toNat ∧ d.opcode.toNat ≤ 0x7f)) :
    ownLogic code i d args = evalOp code.codeLen d.data d.opcode.toNat args := by
  unfold ownLogic
  rw [if_neg hp]
  cases args with
  | nil =>
    simp only [evalOp]
    by_cases h1 : d.opcode.toNat = 0x38
    · have : d.opcode = op.CODESIZE := toNat_eq (k := 0x38) (by omega) h1
      rw [if_pos h1, this]; rfl
    · have n1 : (d.opcode == op.CODESIZE) = false := by
        apply beq_false_of_ne; intro h; rw [h] at h1; exact h1 rfl
      rw [if_neg h1, n1]
      by_cases h2 : d.opcode.toNat = 0x58
      · have : d.opcode = op.PC := toNat_eq (k := 0x58) (by omega) h2
        rw [if_pos h2, this]; rfl
      · have n2 : (d.opcode == op.PC) = false := by
          apply beq_false_of_ne; intro h; rw [h] at h2; exact h2 rfl
        rw [if_neg h2, n2]; rfl
  | cons x xs =>
    simp only
    cases h : lowerInline d.opcode ((x :: xs).map some) with
    | some r =>
      exact (C10_inline_exact _ _ _ code.codeLen d.data h).2
    | none =>
      simp only
      cases hb : builtinArith d.opcode (x :: xs) with
      | some w => exact (C10_builtin_exact _ _ _ _ _ hb).symm
      | none =>
        cases he : evalOp code.codeLen d.data d.opcode.toNat (x :: xs) with
        | none => rfl
        | some w =>
          rcases C10_complete _ _ _ _ _ (by simp) he with h' | h'
          · rw [h] at h'; simp at h'
          · rw [hb] at h'; simp at h'

/-! ## Peepholes -/

theorem peephole_mono2 {o : UInt8} {ca cb : Option Word} {c : Word} {g : Bool} (a b : IRVal)
    (h : tryPeephole o [ca, cb] [none, none] = some { value := some c, payExpGas := g }) :
    tryPeephole o [ca, cb] [a, b] = some { value := some c, payExpGas := g } := by
  have hdiv : ∀ x, peepholeDiv ca cb none = some x → x.value ≠ none → peepholeDiv ca cb a = some x := by
    intro x hx hv
    unfold peepholeDiv at hx ⊢
    repeat' split at hx
    all_goals simp_all [foldConst]
    all_goals (subst hx; exact absurd rfl hv)
  have hsdiv : ∀ x, peepholeSdiv ca cb none = some x → x.value ≠ none → peepholeSdiv ca cb a = some x := by
    intro x hx hv
    unfold peepholeSdiv at hx ⊢
    repeat' split at hx
    all_goals simp_all [foldConst]
    all_goals (subst hx; exact absurd rfl hv)
  have hmod : ∀ x, peepholeMod ca cb none = some x → x.value ≠ none → peepholeMod ca cb a = some x := by
    intro x hx hv
    unfold peepholeMod at hx ⊢
    repeat' split at hx
    all_goals simp_all [foldConst]
    all_goals (subst hx; exact absurd rfl hv)
  have hexp : ∀ x, peepholeExp ca cb none none = some x → x.value ≠ none → peepholeExp ca cb a b = some x := by
    intro x hx hv
    unfold peepholeExp at hx ⊢
    dsimp only at hx ⊢
    repeat' split at hx
    all_goals simp_all [foldConst]
    all_goals (subst hx; exact absurd rfl hv)
  have hse : ∀ x, peepholeSignextend ca none = some x → x.value ≠ none → peepholeSignextend ca b = some x := by
    intro x hx hv
    unfold peepholeSignextend at hx ⊢
    repeat' split at hx
    all_goals simp_all
    all_goals (subst hx; exact absurd rfl hv)
  unfold tryPeephole at h ⊢
  simp only at h ⊢
  split at h
  · rename_i e; rw [if_pos e]; exact hdiv _ h (by simp)
  rename_i e1
  rw [if_neg e1]
  split at h
  · rename_i e; rw [if_pos e]; exact hsdiv _ h (by simp)
  rename_i e1
  rw [if_neg e1]
  split at h
  · rename_i e; rw [if_pos e]; exact hmod _ h (by simp)
  rename_i e1
  rw [if_neg e1]
  split at h
  · rename_i e; rw [if_pos e]; exact h
  rename_i e1
  rw [if_neg e1]
  split at h
  · rename_i e; rw [if_pos e]; exact hexp _ h (by simp)
  rename_i e1
  rw [if_neg e1]
  split at h
  · rename_i e; rw [if_pos e]; exact hse _ h (by simp)
  rename_i e1
  rw [if_neg e1]
  exact h

/-- A rewrite recognised without knowing the operands: which instructions it concerns. -/
theorem peephole_dom {o : UInt8} {inp : Nat} {ci : Nat → Option Word} {p : Peep}
    (h : tryPeephole o ((List.range inp).map ci) (List.replicate inp none) = some p) :
    (mute o.toNat = true ∨ o = op.EXP ∧ inp = 2) ∧ (inp = 2 ∨ inp = 3 ∧ p.payExpGas = false) ∧
      (p.payExpGas = true → (ci 0).isSome = true) := by
  match inp, h with
  | 0, h => cases h
  | 1, h => cases h
  | 2, h =>
    change (if o == op.DIV then peepholeDiv (ci 0) (ci 1) none
      else if o == op.SDIV then peepholeSdiv (ci 0) (ci 1) none
      else if o == op.MOD then peepholeMod (ci 0) (ci 1) none
      else if o == op.SMOD then peepholeSmod (ci 0) (ci 1)
      else if o == op.EXP then peepholeExp (ci 0) (ci 1) none none
      else if o == op.SIGNEXTEND then peepholeSignextend (ci 0) none
      else if o == op.BYTE then peepholeByte (ci 0)
      else none) = some p at h
    have key : mute o.toNat = true ∨ o = op.EXP ∧ 2 = 2 := by
      split at h
      · rename_i e; rw [eq_of_beq e]; exact .inl rfl
      split at h
      · rename_i e; rw [eq_of_beq e]; exact .inl rfl
      split at h
      · rename_i e; rw [eq_of_beq e]; exact .inl rfl
      split at h
      · rename_i e; rw [eq_of_beq e]; exact .inl rfl
      split at h
      · rename_i e; exact .inr ⟨eq_of_beq e, rfl⟩
      split at h
      · rename_i e; rw [eq_of_beq e]; exact .inl rfl
      split at h
      · rename_i e; rw [eq_of_beq e]; exact .inl rfl
      · cases h
    refine ⟨key, .inl rfl, fun hg => ?_⟩
    by_cases he : (o == op.EXP) = true
    · rw [eq_of_beq he] at h
      change peepholeExp (ci 0) (ci 1) none none = some p at h
      unfold peepholeExp at h
      cases h1 : ci 1 with
      | some e =>
        rw [h1] at h
        simp only [foldConst] at h
        repeat' split at h
        all_goals first | cases h; cases hg | cases h
      | none =>
        rw [h1] at h
        cases h0 : ci 0 with
        | some b => rfl
        | none => rw [h0] at h; cases h
    · rw [if_neg he] at h
      unfold peepholeDiv peepholeSdiv peepholeMod peepholeSmod peepholeSignextend peepholeByte foldConst at h
      repeat' split at h
      all_goals first | cases h; cases hg | cases h
  | 3, h =>
    change (if o == op.ADDMOD then peepholeAddmod (ci 0) (ci 1) (ci 2)
      else if o == op.MULMOD then peepholeMulmod (ci 0) (ci 1) (ci 2)
      else none) = some p at h
    have key : mute o.toNat = true ∨ o = op.EXP ∧ 3 = 2 := by
      split at h
      · rename_i e; rw [eq_of_beq e]; exact .inl rfl
      split at h
      · rename_i e; rw [eq_of_beq e]; exact .inl rfl
      · cases h
    have hg : p.payExpGas = false := by
      unfold peepholeAddmod peepholeMulmod foldConst at h
      repeat' split at h
      all_goals first | cases h; rfl | cases h
    exact ⟨key, .inr ⟨rfl, hg⟩, fun h => by rw [hg] at h; cases h⟩
  | n + 4, h =>
    exfalso
    have e1 : (List.range (n + 4)).map ci = ci 0 :: ci 1 :: ci 2 :: ci 3 :: (List.range n).map (fun k => ci (k + 4)) := by
      rw [List.range_succ_eq_map, List.range_succ_eq_map, List.range_succ_eq_map, List.range_succ_eq_map]
      simp [Function.comp_def]
    rw [e1] at h
    cases h

theorem constsAgree_of {ci : Nat → Option Word} {args : List Word} (n : Nat) (hl : args.length = n)
    (h : ∀ k c, k < n → ci k = some c → args[k]? = some c) : ConstsAgree ((List.range n).map ci) args := by
  induction n generalizing ci args with
  | zero =>
    rw [List.length_eq_zero_iff.1 hl]; exact trivial
  | succ n ih =>
    cases args with
    | nil => simp at hl
    | cons x xs =>
      rw [List.range_succ_eq_map, List.map_cons, List.map_map]
      refine ⟨fun w hw => ?_, ih (by simpa using hl) (fun k c hk hc => ?_)⟩
      · have := h 0 w (by omega) hw; simpa using this.symm
      · have := h (k + 1) c (by omega) hc; simpa using this

/-- A rewrite to a constant is the result of the instruction. -/
theorem peephole_const {o : UInt8} {inp : Nat} {ci : Nat → Option Word} {c : Word} {g : Bool} {args : List Word}
    (h : tryPeephole o ((List.range inp).map ci) (List.replicate inp none) = some { value := some c, payExpGas := g })
    (hl : args.length = inp) (hc : ∀ k c, k < inp → ci k = some c → args[k]? = some c) (cl pc : Nat) :
    evalOp cl pc o.toNat args = some c := by
  have hag := constsAgree_of inp hl hc
  have hm : tryPeephole o ((List.range inp).map ci) (args.map some) = some { value := some c, payExpGas := g } := by
    rcases (peephole_dom h).2.1 with rfl | ⟨rfl, _⟩
    · match args, hl with
      | [a, b], _ => exact peephole_mono2 _ _ h
    · match args, hl with
      | [a, b, n], _ => exact h
  exact (C09_peephole_exact o _ args _ cl pc hag hm).2.1.symm

/-! ## The lowerings -/

/-- What `lowerPlain` chooses, and when. -/
inductive PlainCase (o : UInt8) (inp : Nat) (ci : Nat → Option Word) : Lower → Prop
  | fold (c : Word) : tryPeephole o ((List.range inp).map ci) (List.replicate inp none) =
      some { value := some c, payExpGas := false } → PlainCase o inp ci (.fold c)
  | expFold (c : Word) : tryPeephole o ((List.range inp).map ci) (List.replicate inp none) =
      some { value := some c, payExpGas := true } → PlainCase o inp ci (.expFold c)
  | expInline : inp = 2 → PlainCase o inp ci .expInline
  | loadConst : o = op.CALLDATALOAD ∨ o = op.SLOAD → (ci 0).isSome = true → PlainCase o inp ci .loadConst
  | keccak (off len : Word) : o = op.KECCAK256 → constMemoryOperands (ci 0) (ci 1) = some (off, len) →
      PlainCase o inp ci (.keccakConst off len)
  | top : topBuiltins.contains o = true → PlainCase o inp ci .builtinTop
  | builtin : PlainCase o inp ci .builtin
  | nop : o = op.JUMPDEST ∨ o = op.STOP ∨ o = op.INVALID → PlainCase o inp ci .nop
  | inline : PlainCase o inp ci .inline

theorem plainCase (o : UInt8) (inp : Nat) (ci : Nat → Option Word) :
    PlainCase o inp ci (lowerPlain o inp ci) := by
  unfold lowerPlain
  split
  · rename_i h; exact .fold _ h
  · rename_i h; exact .expFold _ h
  · exact .inline
  · rename_i h
    rcases (peephole_dom h).2.1 with h2 | ⟨_, h2⟩
    · exact .expInline h2
    · cases h2
  · split
    · rename_i h
      simp only [Bool.and_eq_true, Bool.or_eq_true, beq_iff_eq] at h
      refine .loadConst h.1 ?_
      cases hc : ci 0 with
      | some w => rfl
      | none => rw [hc] at h; simp at h
    · split
      · rename_i off len h
        by_cases hk : (o == op.KECCAK256) = true
        · rw [if_pos hk] at h
          exact .keccak _ _ (eq_of_beq hk) h
        · rw [if_neg hk] at h; cases h
      · split
        · rename_i h; exact .top h
        · split
          · exact .builtin
          · split
            · rename_i h
              simp only [Bool.or_eq_true, beq_iff_eq] at h
              refine .nop ?_
              rcases h with (h | h) | h
              · exact .inl h
              · exact .inr (.inl h)
              · exact .inr (.inr h)
            · exact .inline

theorem top_table (o : UInt8) (h : topBuiltins.contains o = true) : tableStackIo o = (0, 1) := by
  revert o; decide +kernel

/-- The operands of a hash of constants. -/
theorem constMem_cases {off len : Option Word} {a b : Word} (h : constMemoryOperands off len = some (a, b)) :
    len = some b ∧ (off = some a ∨ b = 0) := by
  unfold constMemoryOperands at h
  obtain ⟨l, hl, h⟩ := Option.bind_eq_some_iff.1 h
  split at h
  · split at h
    · split at h
      · cases h; exact ⟨hl, .inl rfl⟩
      · split at h
        · rename_i hz; cases h; exact ⟨hl, .inr hz⟩
        · cases h
    · split at h
      · rename_i hz; cases h; exact ⟨hl, .inr hz⟩
      · cases h
  · cases h

end Verif
