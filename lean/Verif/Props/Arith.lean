import Verif.Lemmas.ArithLower
/-!
# Properties C08 (constant folding), C09 (peephole rewrites), C10 (inline lowerings)
-/

namespace Verif
open U256

/-- C08: with all operands known (`args`, top of stack first, as many as the opcode takes), the
compiler folds exactly the opcodes whose result is a function of the operands, and the folded
constant is the EVM's result. `inst.data` is the program counter recorded for PC. -/
theorem C08_fold_exact (inst : InstData) (args : List Word) (codeLen : Nat)
    (harity : args.length = (tableStackIo inst.opcode).1) :
    tryConstFold inst (args.reverse.map .const) codeLen =
      Spec.evalOp codeLen inst.data inst.opcode.toNat args := by
  unfold tryConstFold
  by_cases h : inst.opcode = op.CODESIZE
  · rw [h] at harity ⊢
    have : args = [] := List.length_eq_zero_iff.1 (harity.trans (by decide +kernel))
    subst this; rfl
  by_cases h' : inst.opcode = op.PC
  · rw [h'] at harity ⊢
    have : args = [] := List.length_eq_zero_iff.1 (harity.trans (by decide +kernel))
    subst this; rfl
  rw [if_neg (by simpa using h), if_neg (by simpa using h')]
  match args with
  | [] =>
    simp only [Spec.evalOp, List.reverse_nil, List.map_nil]
    rw [if_neg (ne_toNat h (n := 0x38) rfl), if_neg (ne_toNat h' (n := 0x58) rfl)]
  | [a] => exact fold1_spec _ _ _ _
  | [a, b] => exact fold2_spec _ _ _ _ _
  | [a, b, n] => exact fold3_spec _ _ _ _ _ _
  | a :: b :: c :: d :: l =>
    have e1 : Spec.evalOp codeLen inst.data inst.opcode.toNat (a :: b :: c :: d :: l) = none := rfl
    rw [e1]
    split
    · rename_i he
      have := congrArg List.length he; simp at this
    · rename_i he
      have := congrArg List.length he; simp at this
    · rename_i he
      have := congrArg List.length he; simp at this
    · rfl

/-- C08: as soon as one operand is not a single known constant, nothing is folded. -/
theorem C08_unknown_operand (inst : InstData) (inputs : List AbsValue) (codeLen : Nat)
    (harity : inputs.length = (tableStackIo inst.opcode).1)
    (h : ∃ v ∈ inputs, v.asConst = none) : tryConstFold inst inputs codeLen = none := by
  obtain ⟨v, hv, hn⟩ := h
  unfold tryConstFold
  by_cases h : inst.opcode = op.CODESIZE
  · rw [h] at harity
    have : inputs = [] := List.length_eq_zero_iff.1 (harity.trans (by decide +kernel))
    subst this; simp at hv
  by_cases h' : inst.opcode = op.PC
  · rw [h'] at harity
    have : inputs = [] := List.length_eq_zero_iff.1 (harity.trans (by decide +kernel))
    subst this; simp at hv
  rw [if_neg (by simpa using h), if_neg (by simpa using h')]
  split
  · simp only [List.mem_singleton] at hv; subst hv; simp [AbsValue.asConst] at hn
  · simp only [List.mem_cons, List.not_mem_nil, or_false] at hv
    rcases hv with rfl | rfl <;> simp [AbsValue.asConst] at hn
  · simp only [List.mem_cons, List.not_mem_nil, or_false] at hv
    rcases hv with rfl | rfl | rfl <;> simp [AbsValue.asConst] at hn
  · rfl

/-- `MIN / -1`, `(-8) smod 3`, `(2^256-1) + 2 mod 7`, `3^(2^200+1)`-like and `SIGNEXTEND 0 0x80`. -/
example :
    tryConstFold (InstData.mk' op.SDIV) [.const (BitVec.allOnes 256), .const intMin] 0 = some intMin ∧
    tryConstFold (InstData.mk' op.SMOD) [.const 3, .const (-8)] 0 = some (-2) ∧
    tryConstFold (InstData.mk' op.ADDMOD) [.const 7, .const 2, .const (-1)] 0 = some 3 ∧
    tryConstFold (InstData.mk' op.EXP) [.const 300, .const 3] 0 = some (Spec.word (3 ^ 300)) ∧
    tryConstFold (InstData.mk' op.SIGNEXTEND) [.const 0x80, .const 0] 0 = some (-128) := by
  decide +kernel

example : tryConstFold (InstData.mk' op.MUL) [.const 0, .top] 0 = none := by decide +kernel

/-! ## C10 -/

/-- C10: whenever an opcode is lowered to inline instructions, the emitted expression evaluates on
all operand values to the EVM's result, and is never poison. -/
theorem C10_inline_exact (o : UInt8) (args : List Word) (r : IRVal) (codeLen pc : Nat)
    (h : lowerInline o (args.map some) = some r) :
    r.isSome ∧ r = Spec.evalOp codeLen pc o.toNat args := by
  suffices hs : r.isSome ∧ ((∃ a, args = [a] ∧ r = fold1 o a) ∨
      (∃ a b, args = [a, b] ∧ r = fold2 o a b)) by
    refine ⟨hs.1, ?_⟩
    rcases hs.2 with ⟨a, rfl, e⟩ | ⟨a, b, rfl, e⟩
    · rw [e]; exact fold1_spec _ _ _ _
    · rw [e]; exact fold2_spec _ _ _ _ _
  match args with
  | [] => simp [lowerInline] at h
  | [a] =>
    simp only [lowerInline, List.map_cons, List.map_nil] at h
    suffices hs : r.isSome ∧ r = fold1 o a from ⟨hs.1, Or.inl ⟨a, rfl, hs.2⟩⟩
    unfold fold1
    split at h
    · cases h; rename_i h1; simp only [h1, if_true]
      exact ⟨rfl, congrArg some (congrArg ofBool (by simp only [IR.ieq]; exact (Bool.beq_eq_decide_eq _ _).symm))⟩
    split at h
    · cases h; rename_i h0 h1; simp only [h0, h1, if_true]; exact ⟨rfl, rfl⟩
    split at h
    · cases h; rename_i h0 h0' h1; simp only [h0, h0', h1, if_true]; exact ⟨rfl, rfl⟩
    · simp at h
  | [a, b] =>
    suffices hs : r = fold2 o a b ∧ r ≠ none from
      ⟨Option.isSome_iff_ne_none.2 hs.2, Or.inr ⟨a, b, rfl, hs.1⟩⟩
    rw [fold2_spec o a b 0 0]
    simp only [lowerInline, List.map_cons, List.map_nil] at h
    by_cases hADD : o = op.ADD
    · subst hADD; cases Option.some.inj h
      exact ⟨fold2_spec op.ADD a b 0 0, by simp [IR.iadd, IR.bin]⟩
    by_cases hMUL : o = op.MUL
    · subst hMUL; cases Option.some.inj h
      exact ⟨fold2_spec op.MUL a b 0 0, by simp [IR.imul, IR.bin]⟩
    by_cases hSUB : o = op.SUB
    · subst hSUB; cases Option.some.inj h
      exact ⟨fold2_spec op.SUB a b 0 0, by simp [IR.isub, IR.bin]⟩
    by_cases hSE : o = op.SIGNEXTEND
    · subst hSE; rw [← Option.some.inj h]
      exact ⟨lowerSignextend_spec a b, by change lowerSignextend (some a) (some b) ≠ none; rw [lowerSignextend_spec]; simp⟩
    by_cases hLT : o = op.LT
    · subst hLT; rw [← Option.some.inj h]
      exact ⟨congrArg some (ofBool_decide _), by simp [IR.zext, IR.icmp]⟩
    by_cases hGT : o = op.GT
    · subst hGT; rw [← Option.some.inj h]
      exact ⟨congrArg some (ofBool_decide _), by simp [IR.zext, IR.icmp]⟩
    by_cases hSLT : o = op.SLT
    · subst hSLT; rw [← Option.some.inj h]
      exact ⟨congrArg some (ofBool_congr (by rw [IR.slt, decide_eq_true_eq, sgn_eq_toInt, sgn_eq_toInt])),
        by simp [IR.zext, IR.icmp]⟩
    by_cases hSGT : o = op.SGT
    · subst hSGT; rw [← Option.some.inj h]
      exact ⟨congrArg some (ofBool_congr (by rw [IR.sgt, decide_eq_true_eq, sgn_eq_toInt, sgn_eq_toInt])),
        by simp [IR.zext, IR.icmp]⟩
    by_cases hEQ : o = op.EQ
    · subst hEQ; rw [← Option.some.inj h]
      exact ⟨congrArg some (ofBool_decide _), by simp [IR.zext, IR.icmp]⟩
    by_cases hAND : o = op.AND
    · subst hAND; rw [← Option.some.inj h]
      exact ⟨fold2_spec op.AND a b 0 0, by simp [IR.bitand, IR.bin]⟩
    by_cases hOR : o = op.OR
    · subst hOR; rw [← Option.some.inj h]
      exact ⟨fold2_spec op.OR a b 0 0, by simp [IR.bitor, IR.bin]⟩
    by_cases hXOR : o = op.XOR
    · subst hXOR; rw [← Option.some.inj h]
      exact ⟨fold2_spec op.XOR a b 0 0, by simp [IR.bitxor, IR.bin]⟩
    by_cases hBYTE : o = op.BYTE
    · subst hBYTE; rw [← Option.some.inj h]
      exact ⟨lowerByte_spec a b, by change lowerByte (some a) (some b) ≠ none; rw [lowerByte_spec]; simp⟩
    by_cases hSHL : o = op.SHL
    · subst hSHL; rw [← Option.some.inj h]
      have e : lowerShift IR.ishl (some a) (some b) (some 0) = some (Spec.shl a b) :=
        lowerShift_spec IR.ishl (fun x n => x <<< n) (fun _ _ => rfl) a b 0 _
          (fun _ => shl_small) (fun hb => (shl_big hb).symm)
      exact ⟨e, by change lowerShift IR.ishl (some a) (some b) (some 0) ≠ none; rw [e]; simp⟩
    by_cases hSHR : o = op.SHR
    · subst hSHR; rw [← Option.some.inj h]
      have e : lowerShift IR.ushr (some a) (some b) (some 0) = some (Spec.shr a b) :=
        lowerShift_spec IR.ushr (fun x n => x >>> n) (fun _ _ => rfl) a b 0 _
          (fun _ => shr_small) (fun hb => (shr_big hb).symm)
      exact ⟨e, by change lowerShift IR.ushr (some a) (some b) (some 0) ≠ none; rw [e]; simp⟩
    by_cases hSAR : o = op.SAR
    · subst hSAR; rw [← Option.some.inj h]
      have hd : IR.select (IR.icmp IR.slt (some b) (IR.const 0)) (IR.const (BitVec.allOnes 256)) (IR.const 0)
          = some (if 2 ^ 255 ≤ b.toNat then BitVec.allOnes 256 else 0) := by
        simp only [IR.icmp, IR.const, IR.slt]
        have e0 : (0 : Word).toInt = 0 := by decide
        rw [e0, ← sgn_eq_toInt]
        have := word_toNat_lt b
        by_cases hm : 2 ^ 255 ≤ b.toNat
        · rw [if_pos hm, decide_eq_true (by unfold Spec.sgn; split <;> omega)]; rfl
        · rw [if_neg hm, decide_eq_false (by unfold Spec.sgn; split <;> omega)]; rfl
      have e : lowerShift IR.sshr (some a) (some b) (IR.select (IR.icmp IR.slt (some b) (IR.const 0))
          (IR.const (BitVec.allOnes 256)) (IR.const 0)) = some (Spec.sar a b) := by
        rw [hd]
        exact lowerShift_spec IR.sshr (fun x n => x.sshiftRight n) (fun _ _ => rfl) a b _ _
          (fun _ => sar_small) (fun hb => (sar_big hb).symm)
      refine ⟨e, ?_⟩
      intro hc
      exact absurd (e.symm.trans hc) (by simp)
    simp only [beq_iff_eq, *, if_false] at h
    simp at h
  | a :: b :: c :: l => simp [lowerInline] at h

/-- C10: the arithmetic builtins return the EVM's result. -/
theorem C10_builtin_exact (o : UInt8) (args : List Word) (w : Word) (codeLen pc : Nat)
    (h : builtinArith o args = some w) : Spec.evalOp codeLen pc o.toNat args = some w := by
  match args with
  | [] => simp [builtinArith] at h
  | [a] => simp [builtinArith] at h
  | [a, b] =>
    rw [← fold2_spec, ← h]
    simp only [builtinArith] at h ⊢
    by_cases h1 : o = op.DIV
    · subst h1
      refine congrArg some (a₁ := if b ≠ 0 then a / b else 0) (a₂ := if b = 0 then 0 else a / b) ?_
      by_cases hb : b = 0 <;> simp [hb]
    by_cases h2 : o = op.SDIV
    · subst h2; rfl
    by_cases h3 : o = op.MOD
    · subst h3
      refine congrArg some (a₁ := if b ≠ 0 then a % b else 0) (a₂ := if b = 0 then 0 else a % b) ?_
      by_cases hb : b = 0 <;> simp [hb]
    by_cases h4 : o = op.SMOD
    · subst h4; rfl
    by_cases h5 : o = op.EXP
    · subst h5; rfl
    simp only [beq_iff_eq, h1, h2, h3, h4, h5, if_false] at h
    simp at h
  | [a, b, c] =>
    rw [← fold3_spec, ← h]; rfl
  | a :: b :: c :: d :: l => simp [builtinArith] at h

/-- C10: every operand-consuming value opcode is covered by one of the two lowerings. -/
theorem C10_complete (o : UInt8) (args : List Word) (w : Word) (codeLen pc : Nat)
    (hne : args ≠ []) (h : Spec.evalOp codeLen pc o.toNat args = some w) :
    lowerInline o (args.map some) = some (some w) ∨ builtinArith o args = some w := by
  have key : lowerInline o (args.map some) ≠ none ∨ builtinArith o args ≠ none := by
    match args with
    | [] => exact absurd rfl hne
    | [a] =>
      rw [← fold1_spec] at h
      left
      simp only [lowerInline, List.map_cons, List.map_nil]
      unfold fold1 at h
      grind
    | [a, b] =>
      rw [← fold2_spec] at h
      simp only [lowerInline, builtinArith, List.map_cons, List.map_nil]
      unfold fold2 at h
      grind (splits := 60)
    | [a, b, c] =>
      rw [← fold3_spec] at h
      right
      change fold3 o a b c ≠ none
      rw [h]; simp
    | a :: b :: c :: d :: l => simp [Spec.evalOp] at h
  rcases key with hk | hk
  · left
    obtain ⟨r, hr⟩ := Option.ne_none_iff_exists'.1 hk
    have := (C10_inline_exact o args r codeLen pc hr).2
    rw [hr, this, h]
  · right
    obtain ⟨r, hr⟩ := Option.ne_none_iff_exists'.1 hk
    have := C10_builtin_exact o args r codeLen pc hr
    rw [h] at this
    rw [hr, ← this]

/-- Shift amounts at and beyond the width, where an unguarded LLVM shift is poison. -/
example : lowerInline op.SAR [some 256, some intMin] = some (some (BitVec.allOnes 256)) ∧
    lowerInline op.SHL [some 255, some 1] = some (some intMin) ∧
    IR.ishl (some 1) (some 256) = none ∧
    lowerInline op.SIGNEXTEND [some 1, some 0x8000] = some (some (-0x8000)) ∧
    lowerInline op.BYTE [some 31, some 0xabcd] = some (some 0xcd) := by decide +kernel

/-! ## C09 -/

/-- C09: whenever a special-case lowering is selected for an opcode some of whose operands are known
constants, the value it pushes is the EVM's result for every value of the remaining operands (in
particular it is never poison), and the run-time EXP gas is charged iff the opcode is EXP with an
exponent that is not known at compile time. -/
theorem C09_peephole_exact (o : UInt8) (consts : List (Option Word)) (args : List Word) (p : Peep)
    (codeLen pc : Nat) (hc : Spec.ConstsAgree consts args)
    (h : tryPeephole o consts (args.map some) = some p) :
    p.value.isSome ∧ p.value = Spec.evalOp codeLen pc o.toNat args ∧
      (p.payExpGas = true ↔ o = op.EXP ∧ consts[1]? = some none) := by
  unfold tryPeephole at h
  split at h
  · rename_i ca cb a' b' hargs
    match args, hargs, hc with
    | [a, b], hargs, hc =>
    simp only [List.map_cons, List.map_nil, List.cons.injEq, and_true] at hargs
    obtain ⟨rfl, rfl⟩ := hargs
    obtain ⟨ha, hb, _⟩ := hc
    have fin : ∀ {w : Word} {q : Peep}, q.value = some w ∧ q.payExpGas = false → o ≠ op.EXP →
        Spec.evalOp codeLen pc o.toNat [a, b] = some w →
        q.value.isSome ∧ q.value = Spec.evalOp codeLen pc o.toNat [a, b] ∧
        (q.payExpGas = true ↔ o = op.EXP ∧ [ca, cb][1]? = some none) := by
      rintro w q ⟨h1, h2⟩ hne he
      rw [he, h1, h2]
      exact ⟨rfl, rfl, by simp [hne]⟩
    split at h
    · rename_i ho; have ho := eq_of_beq ho; subst ho
      exact fin (peepholeDiv_spec ha hb h) (by decide) rfl
    split at h
    · rename_i ho; have ho := eq_of_beq ho; subst ho
      exact fin (peepholeSdiv_spec ha hb h) (by decide) rfl
    split at h
    · rename_i ho; have ho := eq_of_beq ho; subst ho
      exact fin (peepholeMod_spec ha hb h) (by decide) rfl
    split at h
    · rename_i ho; have ho := eq_of_beq ho; subst ho
      exact fin (peepholeSmod_spec ha hb h) (by decide) rfl
    split at h
    · rename_i ho; have ho := eq_of_beq ho; subst ho
      obtain ⟨h1, h2⟩ := peepholeExp_spec ha hb h
      rw [h1, h2]
      refine ⟨rfl, rfl, ?_⟩
      cases cb <;> simp
    split at h
    · rename_i ho; have ho := eq_of_beq ho; subst ho
      exact fin (peepholeSignextend_spec ha h) (by decide) rfl
    split at h
    · rename_i ho; have ho := eq_of_beq ho; subst ho
      exact fin (peepholeByte_spec ha h) (by decide) rfl
    · simp at h
  · rename_i ca cb cn a' b' n' hargs
    match args, hargs, hc with
    | [a, b, n], hargs, hc =>
    obtain ⟨ha, hb, hn, _⟩ := hc
    have fin : ∀ {w : Word} {q : Peep}, q.value = some w ∧ q.payExpGas = false → o ≠ op.EXP →
        Spec.evalOp codeLen pc o.toNat [a, b, n] = some w →
        q.value.isSome ∧ q.value = Spec.evalOp codeLen pc o.toNat [a, b, n] ∧
        (q.payExpGas = true ↔ o = op.EXP ∧ [ca, cb, cn][1]? = some none) := by
      rintro w q ⟨h1, h2⟩ hne he
      rw [he, h1, h2]
      exact ⟨rfl, rfl, by simp [hne]⟩
    split at h
    · rename_i ho; have ho := eq_of_beq ho; subst ho
      exact fin (peepholeAddmod_spec ha hb hn h) (by decide) rfl
    split at h
    · rename_i ho; have ho := eq_of_beq ho; subst ho
      exact fin (peepholeMulmod_spec ha hb hn h) (by decide) rfl
    · simp at h
  · simp at h

/-- `x / 2^7`, `MIN sdiv MIN`, `8 ** x` at and past the threshold, `(-1) ** 3`. -/
example :
    (tryPeephole op.DIV [none, some 128] [some 1000, some 128]).map (·.value) = some (some 7) ∧
    (tryPeephole op.SDIV [none, some intMin] [some intMin, some intMin]).map (·.value) = some (some 1) ∧
    (tryPeephole op.EXP [some 8, none] [some 8, some 85]).map (·.value) = some (some intMin) ∧
    (tryPeephole op.EXP [some 8, none] [some 8, some 86]).map (·.value) = some (some 0) ∧
    (tryPeephole op.EXP [some (BitVec.allOnes 256), none] [some (BitVec.allOnes 256), some 3]).map
      (·.value) = some (some (BitVec.allOnes 256)) := by decide +kernel

example : Spec.ConstsAgree [some 8, none] [8, 85] := by
  simp [Spec.ConstsAgree]

end Verif
