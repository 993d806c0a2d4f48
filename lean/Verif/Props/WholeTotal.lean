import Verif.Lemmas.WholeTotal
import Verif.Props.WholeDedup
/-!
# C48, C49, C54 and C60: compiling completes

For bytecode whose immediates all decode and whose stack needs fit the types of the section analysis (always the case
up to 10878 bytes), every live PUSH is known when code is generated and the compiler produces a program, with and
without deduplication. Without these two restrictions it may panic (`C48_completes_fails`, `C49_known_fails`).
-/

namespace Verif
open Spec

section total
variable (g : UInt8 → BitVec 16) (spec : SpecId) (limit : Nat) {bytes : List UInt8} (hlen : bytes.length ≤ 2 ^ 31)
  (hdec : ∀ (i : Nat) d, (parse g spec bytes).toProg.insts[i]? = some d → ¬ Undecodable (parse g spec bytes).toCode i d)
  (hspan : ∀ a n, -65535 ≤ lowest ((((parse g spec bytes).toProg.insts.drop a).take n).map (·.stackIo)) 0 ∧
    highest ((((parse g spec bytes).toProg.insts.drop a).take n).map (·.stackIo)) 0 ≤ 32767)
include hlen hdec hspan

theorem bytes_known : Known (parse g spec bytes).toCode (parse g spec bytes).toProg.refresh.insts
      (localSnapshots (parse g spec bytes).toCode limit (parse g spec bytes).toProg) ∧
    Known (parse g spec bytes).toCode (parse g spec bytes).toProg.refresh.insts (analyzeBytes g spec limit bytes).2 := by
  have S := shut_parse (g := g) (spec := spec) hlen
  have hinst : ∀ (i : Nat) d, (parse g spec bytes).toProg.insts[i]? = some d → Wf (parse g spec bytes).toCode (i, d) :=
    fun i d hd => wf_of hlen (.refl _) hd
  have hbad : ∀ (i : Nat) d, (parse g spec bytes).toProg.insts[i]? = some d → badImm (parse g spec bytes).toCode (i, d) = false :=
    fun i d hd => by
      cases h : badImm (parse g spec bytes).toCode (i, d) with
      | false => rfl
      | true => exact absurd (undecodable_bad.1 h) (hdec i d hd)
  unfold analyzeBytes localSnapshots
  dsimp only
  revert S hinst hbad hspan
  generalize (parse g spec bytes).toCode = code
  generalize (parse g spec bytes).toProg = p
  intro hspan S hinst hbad
  exact analyze_known S hinst hbad hspan

/-- C49 for whole contracts: every live PUSH has its value recorded when code is generated. Missing: undecodable
immediates (`C49_known_fails`), stretches with stack needs over 65535 words. -/
theorem C49_bytes_partial {i : Nat} {d : InstData} (hd : (analyzeBytes g spec limit bytes).1.insts[i]? = some d)
    (hlive : d.flags.deadCode = false) (hpush : 0x5f ≤ d.opcode.toNat ∧ d.opcode.toNat ≤ 0x7f)
    (hon : (d.flags.disabled || d.flags.unknown) = false) :
    (analyzeBytes g spec limit bytes).2.constOutput i = some ((parse g spec bytes).toCode.imm i) := by
  have h := (bytes_known g spec limit hlen hdec hspan).2.later (analysed_of g spec limit hlen).ev i d hd hlive hpush hon
  unfold AIState.constOutput
  rw [h]
  rfl

/-- C54, C48: the compiler produces a program. Missing: undecodable immediates, stretches with stack needs over 65535
words. -/
theorem C54_compiles_partial (o : WOpts) : ∃ C, compileBytes o g spec limit bytes = some C := by
  have hk := (bytes_known g spec limit hlen hdec hspan).2.later (analysed_of g spec limit hlen).ev
  have hst := steady_analyze g spec limit hlen
  have hev := (evolves_refresh (parse g spec bytes).toProg).trans (analysed_of g spec limit hlen).ev
  have hinst : ∀ (i : Nat) d, (parse g spec bytes).toProg.insts[i]? = some d → Wf (parse g spec bytes).toCode (i, d) :=
    fun i d hd => wf_of hlen (.refl _) hd
  unfold compileBytes
  dsimp only
  revert hk hst hev hinst hspan
  generalize (parse g spec bytes).toCode = code
  generalize (parse g spec bytes).toProg = p
  generalize analyzeBytes g spec limit bytes = r
  intro hspan hk hst hev hinst
  obtain ⟨bs, h⟩ := compileBlocks_some o hst.anch hev hinst hspan hk
  rw [h]
  exact ⟨_, rfl⟩

/-- C60, C48: the compiler with deduplication produces a program. Missing: undecodable immediates, stretches with stack
needs over 65535 words. -/
theorem C60_compiles_partial (o : WOpts) : ∃ D, compileDedup o g spec limit bytes = some D := by
  have hk := bytes_known g spec limit hlen hdec hspan
  have hst := steady_analyze g spec limit hlen
  have hev1 := (analysed_of g spec limit hlen).ev
  have hev := (evolves_refresh (parse g spec bytes).toProg).trans hev1
  have hinst : ∀ (i : Nat) d, (parse g spec bytes).toProg.insts[i]? = some d → Wf (parse g spec bytes).toCode (i, d) :=
    fun i d hd => wf_of hlen (.refl _) hd
  unfold compileDedup
  dsimp only
  revert hk hst hev hev1 hinst hspan
  generalize localSnapshots (parse g spec bytes).toCode limit (parse g spec bytes).toProg = loc
  generalize (parse g spec bytes).toCode = code
  generalize (parse g spec bytes).toProg = p
  generalize analyzeBytes g spec limit bytes = r
  rintro hspan ⟨hk1, hk2⟩ hst hev1 hev hinst
  obtain ⟨c, hc⟩ := dedupProg_some (loc := loc) hst
  have A := rounds_after hst rfl (dedupProg_rounds hc)
  have hev2 : Evolves p.refresh.insts c.prog.insts := hev1.trans A.ev
  have hk : Known code c.prog.insts c.ai := by
    intro i d hd h1 h2 h3
    rcases A.either i with h | h
    · rw [h.2]; exact (hk1.later hev2) i d hd h1 h2 h3
    · rw [h.2]; exact (hk2.later hev2) i d hd h1 h2 h3
  obtain ⟨bs, h⟩ := compileBlocks_some o A.steady.anch (hev.trans A.ev) hinst hspan hk
  rw [hc, Option.bind_some, h]
  exact ⟨_, rfl⟩

end total

/-! ## Short contracts -/

theorem table_needs : ∀ o : UInt8, (tableStackIo o).1 ≤ 17 ∧ (tableStackIo o).1 ≤ (tableStackIo o).2 + 6 ∧
    (tableStackIo o).2 ≤ (tableStackIo o).1 + 1 := by decide +kernel

theorem io_needs {code : Code} {i : Nat} {d : InstData} (h : Wf code (i, d)) :
    d.stackIo.1 ≤ 256 ∧ d.stackIo.1 ≤ d.stackIo.2 + 6 ∧ d.stackIo.2 ≤ d.stackIo.1 + 1 := by
  cases hoff : d.flags.disabled || d.flags.unknown with
  | true =>
    rw [show d.stackIo = (0, 0) from h.off hoff]
    decide
  | false =>
    rw [show d.stackIo = computeStackIo d.opcode (some [UInt8.ofNat (code.imm i).toNat]) from h.io hoff]
    generalize UInt8.ofNat (code.imm i).toNat = b
    unfold computeStackIo
    dsimp only
    split
    · cases decodeSingle b with
      | none => decide
      | some n => have := n.toNat_lt; simp only [Option.map_some, Option.getD_some]; omega
    · split
      · cases decodeSingle b with
        | none => decide
        | some n => have := n.toNat_lt; simp only [Option.map_some, Option.getD_some]; omega
      · split
        · cases decodePair b with
          | none => decide
          | some n => have := n.2.toNat_lt; simp only [Option.map_some, Option.getD_some]; omega
        · have := table_needs d.opcode
          omega

theorem span_bound : ∀ (l : List (Nat × Nat)), (∀ x ∈ l, x.1 ≤ 256 ∧ x.1 ≤ x.2 + 6 ∧ x.2 ≤ x.1 + 1) → ∀ h : Int,
    h - 6 * l.length - 256 ≤ lowest l h ∧ highest l h ≤ h + l.length
  | [], _, h => by
    show h - 6 * ((0 : Nat) : Int) - 256 ≤ h ∧ h ≤ h + ((0 : Nat) : Int)
    omega
  | (a, b) :: l, hl, h => by
    obtain ⟨h1, h2, h3⟩ := hl (a, b) (by simp)
    obtain ⟨h4, h5⟩ := span_bound l (fun x hx => hl x (List.mem_cons_of_mem _ hx)) (h - a + b)
    show h - 6 * ((l.length + 1 : Nat) : Int) - 256 ≤ min (h - a) (lowest l (h - a + b)) ∧
      max h (highest l (h - a + b)) ≤ h + ((l.length + 1 : Nat) : Int)
    dsimp only at h1 h2 h3
    omega

theorem parseLoop_count (infos : UInt8 → OpcodeInfo) (n : Nat) : ∀ (bytes : List UInt8) (pc : Nat) (it : Interner),
    bytes.length ≤ n → (parseLoop infos bytes pc it).1.length ≤ bytes.length := by
  induction n with
  | zero =>
    intro bytes pc it h
    cases bytes with
    | nil => rw [parseLoop]; exact Nat.le_refl _
    | cons o rest => simp at h
  | succ n ih =>
    intro bytes pc it h
    cases bytes with
    | nil => rw [parseLoop]; exact Nat.le_refl _
    | cons o rest =>
      rw [parseLoop]
      have h1 := loopNext_length infos o rest
      simp only [List.length_cons] at h ⊢
      have := ih (loopNext infos o rest) (pc + loopAdvance infos o rest) (instDataField o pc rest it).2 (by omega)
      omega

theorem parse_count (g : UInt8 → BitVec 16) (spec : SpecId) (bytes : List UInt8) :
    (parse g spec bytes).toProg.insts.length ≤ bytes.length + 1 := by
  have h := parseLoop_count (makeMap g spec) bytes.length bytes 0 [] (Nat.le_refl _)
  unfold Parsed.toProg parse
  dsimp only
  rw [List.length_map]
  split <;> split <;> (try simp only [List.length_append, List.length_cons, List.length_nil]) <;> omega

theorem short_spans (g : UInt8 → BitVec 16) (spec : SpecId) {bytes : List UInt8} (h : bytes.length ≤ 10878) :
    ∀ a n, -65535 ≤ lowest ((((parse g spec bytes).toProg.insts.drop a).take n).map (·.stackIo)) 0 ∧
      highest ((((parse g spec bytes).toProg.insts.drop a).take n).map (·.stackIo)) 0 ≤ 32767 := by
  intro a n
  have hc := parse_count g spec bytes
  have hb := span_bound ((((parse g spec bytes).toProg.insts.drop a).take n).map (·.stackIo)) (fun x hx => by
    obtain ⟨d, hd, rfl⟩ := List.mem_map.1 hx
    obtain ⟨i, hi⟩ := List.getElem?_of_mem (List.mem_of_mem_drop (List.mem_of_mem_take hd))
    exact io_needs (wf_of (by omega) (.refl _) hi)) 0
  have hl : (((((parse g spec bytes).toProg.insts.drop a).take n).map (·.stackIo)).length) ≤ bytes.length + 1 := by
    rw [List.length_map, List.length_take, List.length_drop]
    omega
  omega

/-- Before Amsterdam no immediate can fail to decode. -/
theorem early_decodes (g : UInt8 → BitVec 16) {spec : SpecId} (hs : spec < SpecId.AMSTERDAM) {bytes : List UInt8}
    (i : Nat) (d : InstData) (hd : (parse g spec bytes).toProg.insts[i]? = some d) :
    ¬ Undecodable (parse g spec bytes).toCode i d := by
  intro h
  have hb := undecodable_bad.2 h
  unfold badImm at hb
  simp only [Bool.and_eq_true, Bool.or_eq_true, beq_iff_eq, Bool.not_eq_true', Bool.or_eq_false_iff] at hb
  obtain ⟨a1, a2⟩ := parse_avail hd
  have hact : opActive (makeMap g spec d.opcode) = true := by
    unfold opActive
    rw [← a1, ← a2, hb.1.1.1, hb.1.1.2]
    rfl
  rw [opActive_iff] at hact
  obtain ⟨f, h1, h2⟩ := hact
  have : f = SpecId.AMSTERDAM := by
    rcases hb.1.2 with (h | h) | h <;> rw [h] at h1
    · exact (Option.some.inj (h1.symm.trans (by decide : introFork op.DUPN.toNat = some SpecId.AMSTERDAM)))
    · exact (Option.some.inj (h1.symm.trans (by decide : introFork op.SWAPN.toNat = some SpecId.AMSTERDAM)))
    · exact (Option.some.inj (h1.symm.trans (by decide : introFork op.EXCHANGE.toNat = some SpecId.AMSTERDAM)))
  subst this
  exact absurd hs (Nat.not_lt.2 h2)

/-- C48, C49, C54, C60: every contract of up to 10878 bytes compiles, with and without deduplication, on every fork before
Amsterdam. (10923 LOG4 instructions do not: `C48_completes_fails`.) -/
theorem C48_short_partial (g : UInt8 → BitVec 16) {spec : SpecId} (hs : spec < SpecId.AMSTERDAM) (limit : Nat)
    {bytes : List UInt8} (h : bytes.length ≤ 10878) (o : WOpts) :
    (∃ C, compileBytes o g spec limit bytes = some C) ∧ ∃ D, compileDedup o g spec limit bytes = some D :=
  ⟨C54_compiles_partial g spec limit (by omega) (early_decodes g hs) (short_spans g spec h) o,
    C60_compiles_partial g spec limit (by omega) (early_decodes g hs) (short_spans g spec h) o⟩

/-- The hypotheses hold for `twinBytes`, whose PUSH at 1 pushes 7. -/
example : (analyzeBytes (fun _ => 3) SpecId.CANCUN 1000 twinBytes).2.constOutput 1 = some 7 := by
  have h : (analyzeBytes (fun _ => 3) SpecId.CANCUN 1000 twinBytes).1.insts[1]?.map
      (fun d => (d.flags.deadCode, d.opcode, d.flags.disabled, d.flags.unknown)) = some (false, 0x60, false, false) := by
    decide +kernel
  obtain ⟨d, hd, he⟩ := Option.map_eq_some_iff.1 h
  simp only [Prod.mk.injEq] at he
  rw [C49_bytes_partial (fun _ => 3) SpecId.CANCUN 1000 (by decide) (early_decodes _ (by decide))
    (short_spans _ _ (by decide)) hd he.1 (by rw [he.2.1]; decide) (by rw [he.2.2.1, he.2.2.2]; rfl)]
  decide +kernel

end Verif
