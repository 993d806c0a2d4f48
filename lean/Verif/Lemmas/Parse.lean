import Verif.Lemmas.Opcode
import Verif.Lemmas.Imm
import Verif.Spec.Code

namespace Verif
open OpcodeInfo

theorem opActive_iff (g : UInt8 → BitVec 16) (spec : SpecId) (o : UInt8) :
    opActive (makeMap g spec o) = true ↔ Spec.activeIn spec o.toNat := by
  have a := makeMap_disabled g spec o
  have b := makeMap_unknown g spec o
  unfold opActive Spec.activeIn
  rw [Bool.not_eq_true', ← Bool.not_eq_true, Bool.or_eq_true, a, b]
  cases Spec.introFork o.toNat with
  | none => simp
  | some f => simp [Nat.not_lt]

/-- Immediate bytes skipped after opcode `o` followed by `rest`. -/
def skipLen (infos : UInt8 → OpcodeInfo) (o : UInt8) (rest : List UInt8) : Nat :=
  if loopRewind infos o rest then 0 else if opActive (infos o) then minImmLen o else 0

theorem iterNext_eq (infos : UInt8 → OpcodeInfo) (o : UInt8) (rest : List UInt8) :
    iterNext infos o rest =
      (let L := if opActive (infos o) then minImmLen o else 0
       (if 0 < L ∧ L ≤ rest.length then some (rest.take L) else none, rest.drop L)) := by
  unfold iterNext
  dsimp only
  by_cases h : opActive (infos o) = true
  · simp only [h, if_true]
    by_cases h2 : minImmLen o > 0
    · simp [h2]
    · simp [Nat.eq_zero_of_not_pos h2]
  · simp [h]

theorem loopNext_eq (infos : UInt8 → OpcodeInfo) (o : UInt8) (rest : List UInt8) :
    loopNext infos o rest = rest.drop (skipLen infos o rest) := by
  unfold loopNext skipLen
  split
  · simp
  · rw [iterNext_eq]

theorem loopAdvance_eq (infos : UInt8 → OpcodeInfo) (o : UInt8) (rest : List UInt8)
    (h : skipLen infos o rest ≤ rest.length) :
    loopAdvance infos o rest = 1 + skipLen infos o rest := by
  unfold loopAdvance
  unfold skipLen at *
  by_cases hr : loopRewind infos o rest = true
  · have : (iterNext infos o rest).1 = some [op.JUMPDEST] := by
      unfold loopRewind at hr
      simp only [Bool.and_eq_true, beq_iff_eq] at hr
      exact hr.2
    rw [this]; simp [hr]
  · simp only [hr] at h ⊢
    rw [iterNext_eq]
    dsimp only
    simp only [Bool.false_eq_true, if_false] at h ⊢
    by_cases h0 : 0 < (if opActive (infos o) then minImmLen o else 0)
    · rw [if_pos ⟨h0, h⟩]
      simp [List.length_take]; omega
    · rw [if_neg (fun hc => h0 hc.1)]; simp only; omega

/-- Pushes/EIP-8024 opcodes are the only ones with immediates: complete table. -/
theorem minImmLen_table : ∀ o : UInt8,
    minImmLen o = if 0x60 ≤ o.toNat ∧ o.toNat ≤ 0x7f then o.toNat - 0x5f
      else if 0xe6 ≤ o.toNat ∧ o.toNat ≤ 0xe8 then 1 else 0 := by decide +kernel

theorem push_active_table : ∀ o : UInt8, (0x60 ≤ o.toNat ∧ o.toNat ≤ 0x7f) →
    Spec.introFork o.toNat = some SpecId.FRONTIER := by decide +kernel

theorem eip8024_table : ∀ o : UInt8,
    (isEip8024 o = true ↔ (0xe6 ≤ o.toNat ∧ o.toNat ≤ 0xe8)) ∧
    (isEip8024 o = true → Spec.introFork o.toNat = some SpecId.AMSTERDAM) := by decide +kernel

theorem isPush_table : ∀ o : UInt8, isPush o = true ↔ (0x5f ≤ o.toNat ∧ o.toNat ≤ 0x7f) := by
  decide +kernel

theorem skipLen_eq (g : UInt8 → BitVec 16) (spec : SpecId) (o : UInt8) (rest : List UInt8) :
    skipLen (makeMap g spec) o rest = Spec.immLen spec o rest.head? := by
  unfold skipLen Spec.immLen loopRewind
  rw [iterNext_eq]
  have hact := opActive_iff g spec o
  have hmin := minImmLen_table o
  have heip := eip8024_table o
  by_cases hp : 0x60 ≤ o.toNat ∧ o.toNat ≤ 0x7f
  · have hne : isEip8024 o = false := by
      rw [← Bool.not_eq_true, heip.1]; omega
    have ha : opActive (makeMap g spec o) = true := by
      rw [hact]; exact ⟨_, push_active_table o hp, Nat.zero_le _⟩
    rw [if_pos hp] at hmin
    simp [hne, ha, hmin, hp]
  · rw [if_neg hp] at hmin
    rw [if_neg hp]
    by_cases he : 0xe6 ≤ o.toNat ∧ o.toNat ≤ 0xe8
    · have hE : isEip8024 o = true := heip.1.2 he
      rw [if_pos he] at hmin
      by_cases hs : SpecId.AMSTERDAM ≤ spec
      · have ha : opActive (makeMap g spec o) = true := by
          rw [hact]; exact ⟨_, heip.2 hE, hs⟩
        cases rest with
        | nil => simp [hE, ha, hmin, he, hs]
        | cons b tl =>
          by_cases hb : b = 0x5b
          · simp [hE, ha, hmin, he, hs, hb]
          · have hb' : ¬ (b = 91) := hb
            simp [hE, ha, hmin, he, hs, hb']
      · have ha : opActive (makeMap g spec o) = false := by
          rw [← Bool.not_eq_true, hact]
          rintro ⟨f, hf, hle⟩
          rw [heip.2 hE] at hf
          cases hf; exact hs hle
        simp [hE, ha, he, hs]
    · rw [if_neg he] at hmin
      have hne : isEip8024 o = false := by
        rw [← Bool.not_eq_true, heip.1]; exact he
      have : ¬ (0xe6 ≤ o.toNat ∧ o.toNat ≤ 0xe8 ∧ SpecId.AMSTERDAM ≤ spec ∧ rest.head? ≠ some 0x5b) :=
        fun h => he ⟨h.1, h.2.1⟩
      rw [if_neg this]
      simp [hne, hmin]

theorem parseLoop_cons (infos : UInt8 → OpcodeInfo) (o : UInt8) (rest : List UInt8) (pc : Nat)
    (it : Interner) :
    parseLoop infos (o :: rest) pc it =
      ((pc, mkInst infos o (iterNext infos o rest).1 (instDataField o pc rest it).1) ::
        (parseLoop infos (loopNext infos o rest) (pc + loopAdvance infos o rest)
          (instDataField o pc rest it).2).1,
       (parseLoop infos (loopNext infos o rest) (pc + loopAdvance infos o rest)
          (instDataField o pc rest it).2).2) := by
  rw [parseLoop]

theorem parseLoop_nil (infos : UInt8 → OpcodeInfo) (pc : Nat) (it : Interner) :
    parseLoop infos [] pc it = ([], it) := by
  rw [parseLoop]

/-- Bytes left, seen from program counter `pc` of `code`. -/
def Aligned (code bytes : List UInt8) (pc : Nat) : Prop := bytes = [] ∨ bytes = code.drop pc

theorem Aligned.next {code : List UInt8} {pc : Nat} {o : UInt8} {rest : List UInt8}
    (infos : UInt8 → OpcodeInfo) (h : o :: rest = code.drop pc) :
    Aligned code (loopNext infos o rest) (pc + loopAdvance infos o rest) := by
  have hrest : rest = code.drop (pc + 1) := by
    rw [← List.drop_drop, ← h]; rfl
  rw [loopNext_eq]
  by_cases hs : skipLen infos o rest ≤ rest.length
  · right
    rw [loopAdvance_eq infos o rest hs, hrest, List.drop_drop]
    congr 1; omega
  · left; exact List.drop_eq_nil_of_le (by omega)

theorem drop_head {code : List UInt8} {pc : Nat} {o : UInt8} {rest : List UInt8}
    (h : o :: rest = code.drop pc) : code[pc]? = some o ∧ rest = code.drop (pc + 1) ∧ pc < code.length := by
  have h1 : rest = code.drop (pc + 1) := by rw [← List.drop_drop, ← h]; rfl
  have h2 : code[pc]? = some o := by
    have := congrArg List.head? h
    rw [List.head?_drop] at this
    simpa using this.symm
  exact ⟨h2, h1, (List.getElem?_eq_some_iff.1 h2).1⟩

theorem head?_drop_succ {code rest : List UInt8} {pc : Nat} (h : rest = code.drop (pc + 1)) :
    rest.head? = code[pc + 1]? := by rw [h, List.head?_drop]

theorem instDataField_prefix (o : UInt8) (pc : Nat) (tail : List UInt8) (it : Interner) :
    it <+: (instDataField o pc tail it).2 := by
  unfold instDataField
  split
  · exact U256Imm.new_prefix _ _
  · split <;> exact List.prefix_refl _

theorem U256Imm.new_length (v : Word) (it : Interner) :
    (U256Imm.new v it).2.length ≤ it.length + 1 := by
  unfold U256Imm.new
  split
  · simp
  · simp only [Interner.intern]
    cases List.idxOf? v it <;> simp

theorem instDataField_length (o : UInt8) (pc : Nat) (tail : List UInt8) (it : Interner) :
    (instDataField o pc tail it).2.length ≤ it.length + 1 := by
  unfold instDataField
  split
  · exact U256Imm.new_length _ _
  · split <;> simp

theorem parseLoop_prefix (infos : UInt8 → OpcodeInfo) (bytes : List UInt8) (pc : Nat)
    (it : Interner) : it <+: (parseLoop infos bytes pc it).2 := by
  fun_induction parseLoop infos bytes pc it with
  | case1 => exact List.prefix_refl _
  | case2 pc it o rest _ _ _ _ ih =>
    exact (instDataField_prefix o pc rest it).trans ih

theorem parseLoop_pool (infos : UInt8 → OpcodeInfo) (bytes : List UInt8) (pc : Nat)
    (it : Interner) : (parseLoop infos bytes pc it).2.length ≤ it.length + bytes.length := by
  fun_induction parseLoop infos bytes pc it with
  | case1 => simp
  | case2 pc it o rest _ di _ r ih =>
    have h1 : di.2.length ≤ it.length + 1 := instDataField_length o pc rest it
    have h2 := loopNext_length infos o rest
    have h3 : r.2.length ≤ di.2.length + (loopNext infos o rest).length := ih
    simp only [List.length_cons]
    omega

/-- Everything about the instruction at one position. -/
theorem parseLoop_mem (infos : UInt8 → OpcodeInfo) (code : List UInt8) (bytes : List UInt8) (pc : Nat)
    (it : Interner) (hal : Aligned code bytes pc) (x : Nat × InstData)
    (hx : x ∈ (parseLoop infos bytes pc it).1) :
    pc ≤ x.1 ∧ x.1 < code.length ∧ code[x.1]? = some x.2.opcode ∧
    ∃ it0, it <+: it0 ∧ (instDataField x.2.opcode x.1 (code.drop (x.1 + 1)) it0).2 <+:
        (parseLoop infos bytes pc it).2 ∧
      x.2 = mkInst infos x.2.opcode (iterNext infos x.2.opcode (code.drop (x.1 + 1))).1
        (instDataField x.2.opcode x.1 (code.drop (x.1 + 1)) it0).1 := by
  fun_induction parseLoop infos bytes pc it with
  | case1 => simp at hx
  | case2 pc it o rest _ _ _ _ ih =>
    rcases hal with h | h
    · cases h
    obtain ⟨h1, h2, h3⟩ := drop_head h
    rcases List.mem_cons.1 hx with hx | hx
    · subst hx
      refine ⟨Nat.le_refl _, h3, h1, it, List.prefix_refl _, ?_, ?_⟩
      · rw [← h2]; exact parseLoop_prefix ..
      · rw [← h2]; rfl
    · obtain ⟨a, b, c, it0, d, e, f⟩ := ih (Aligned.next infos h) hx
      exact ⟨by omega, b, c, it0, (instDataField_prefix o pc rest it).trans d, e, f⟩

/-- First instruction. -/
theorem parseLoop_head? (infos : UInt8 → OpcodeInfo) (bytes : List UInt8) (pc : Nat) (it : Interner) :
    ((parseLoop infos bytes pc it).1.head?.map (·.1)) = if bytes = [] then none else some pc := by
  cases bytes with
  | nil => rw [parseLoop_nil]; simp
  | cons o rest => rw [parseLoop_cons]; simp

/-- Consecutive instructions are adjacent, and the last one covers the end of the code. -/
theorem parseLoop_chain (g : UInt8 → BitVec 16) (spec : SpecId) (code bytes : List UInt8) (pc : Nat)
    (it : Interner) (hal : Aligned code bytes pc) :
    (parseLoop (makeMap g spec) bytes pc it).1.IsChain (fun a b =>
      b.1 = a.1 + 1 + Spec.immLen spec a.2.opcode code[a.1 + 1]?) ∧
    ∀ x, (parseLoop (makeMap g spec) bytes pc it).1.getLast? = some x →
      code.length ≤ x.1 + 1 + Spec.immLen spec x.2.opcode code[x.1 + 1]? := by
  fun_induction parseLoop (makeMap g spec) bytes pc it with
  | case1 => simp
  | case2 pc it o rest imm di inst r ih =>
    rcases hal with h | h
    · cases h
    obtain ⟨h1, h2, h3⟩ := drop_head h
    obtain ⟨ih1, ih2⟩ := ih (Aligned.next _ h)
    have hskip := skipLen_eq g spec o rest
    rw [head?_drop_succ h2] at hskip
    have hop : inst.opcode = o := rfl
    by_cases hn : loopNext (makeMap g spec) o rest = []
    · have hr : r.1 = [] := by
        show (parseLoop _ (loopNext (makeMap g spec) o rest) _ _).1 = []
        rw [hn, parseLoop_nil]
      rw [hr]
      refine ⟨List.IsChain.singleton _, ?_⟩
      intro x hx
      simp only [List.getLast?_singleton, Option.some.injEq] at hx
      subst hx
      rw [loopNext_eq, List.drop_eq_nil_iff, h2, List.length_drop, ← h2] at hn
      simp only [hop]
      omega
    · have hs : skipLen (makeMap g spec) o rest < rest.length := by
        rw [loopNext_eq, List.drop_eq_nil_iff] at hn; omega
      have hadv := loopAdvance_eq (makeMap g spec) o rest (by omega)
      have hhead := parseLoop_head? (makeMap g spec) (loopNext (makeMap g spec) o rest)
        (pc + loopAdvance (makeMap g spec) o rest) di.2
      rw [if_neg hn] at hhead
      obtain ⟨y, tl, hy⟩ : ∃ y tl, r.1 = y :: tl := by
        cases hrr : r.1 with
        | nil =>
          rw [show (parseLoop (makeMap g spec) (loopNext (makeMap g spec) o rest)
            (pc + loopAdvance (makeMap g spec) o rest) di.2).1 = r.1 from rfl, hrr] at hhead
          simp at hhead
        | cons y tl => exact ⟨y, tl, rfl⟩
      have hy1 : y.1 = pc + loopAdvance (makeMap g spec) o rest := by
        rw [show (parseLoop (makeMap g spec) (loopNext (makeMap g spec) o rest)
            (pc + loopAdvance (makeMap g spec) o rest) di.2).1 = r.1 from rfl, hy] at hhead
        simpa using hhead
      have e1 : (parseLoop (makeMap g spec) (loopNext (makeMap g spec) o rest)
            (pc + loopAdvance (makeMap g spec) o rest) di.2).1 = r.1 := rfl
      rw [e1] at ih1 ih2
      refine ⟨?_, ?_⟩
      · rw [hy] at ih1 ⊢
        rw [List.isChain_cons_cons]
        refine ⟨?_, ih1⟩
        simp only [hop]
        omega
      · intro x hx
        apply ih2
        rw [hy] at hx ⊢
        simpa using hx

end Verif
