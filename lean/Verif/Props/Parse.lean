import Verif.Lemmas.Parse

/-!
# Properties C01 (jump destinations), C02 (tiling), C03 (push values), C04 (STOP padding)
-/

namespace Verif
open OpcodeInfo

/-! ## Shape of a parse -/

/-- The instructions of the parse that come from code bytes (everything but the padding). -/
def realInsts (g : UInt8 → BitVec 16) (spec : SpecId) (code : List UInt8) : List (Nat × InstData) :=
  (parse g spec code).insts.filter fun x => decide (x.1 < code.length)

theorem loop_lt (g : UInt8 → BitVec 16) (spec : SpecId) (code : List UInt8) :
    ∀ x ∈ (parseLoop (makeMap g spec) code 0 []).1, x.1 < code.length := by
  intro x hx
  exact (parseLoop_mem _ code code 0 [] (Or.inr (by simp)) x hx).2.1

theorem parse_insts (g : UInt8 → BitVec 16) (spec : SpecId) (code : List UInt8) :
    ∃ pad, (parse g spec code).insts = (parseLoop (makeMap g spec) code 0 []).1 ++ pad ∧
      ((pad = [(code.length, InstData.mk' op.STOP)] ∧
          ∀ x, (parseLoop (makeMap g spec) code 0 []).1.getLast? = some x →
            x.2.canFallThrough = true) ∨
       (pad = [] ∧ ∃ x, (parseLoop (makeMap g spec) code 0 []).1.getLast? = some x ∧
            x.2.canFallThrough = false)) := by
  unfold parse
  dsimp only
  cases h : (parseLoop (makeMap g spec) code 0 []).1.getLast? with
  | none => exact ⟨[(code.length, InstData.mk' op.STOP)], by simp, Or.inl ⟨rfl, by simp⟩⟩
  | some x =>
    cases hc : x.2.canFallThrough with
    | true =>
      refine ⟨[(code.length, InstData.mk' op.STOP)], by simp [hc], Or.inl ⟨rfl, ?_⟩⟩
      intro y hy; cases hy; exact hc
    | false => exact ⟨[], by simp [hc], Or.inr ⟨rfl, x, rfl, hc⟩⟩

theorem realInsts_eq (g : UInt8 → BitVec 16) (spec : SpecId) (code : List UInt8) :
    realInsts g spec code = (parseLoop (makeMap g spec) code 0 []).1 := by
  have h := loop_lt g spec code
  obtain ⟨pad, hp, hpad⟩ := parse_insts g spec code
  unfold realInsts
  rw [hp, List.filter_append, List.filter_eq_self.2 (by simpa using h)]
  rcases hpad with ⟨rfl, _⟩ | ⟨rfl, _⟩ <;> simp

/-! ## C02 -/

/-- C02: the program counters of the parsed instructions tile the code. They start at 0; each
instruction's opcode is the byte at its counter; the next instruction starts right after the
immediate of the previous one; the last instruction (with its possibly truncated immediate) reaches
the end of the code. -/
theorem C02_tiling (g : UInt8 → BitVec 16) (spec : SpecId) (code : List UInt8) :
    let l := realInsts g spec code
    (l.head?.map (·.1) = if code = [] then none else some 0) ∧
    (∀ x ∈ l, code[x.1]? = some x.2.opcode) ∧
    l.IsChain (fun a b => b.1 = a.1 + 1 + Spec.immLen spec a.2.opcode code[a.1 + 1]?) ∧
    (∀ x, l.getLast? = some x →
      code.length ≤ x.1 + 1 + Spec.immLen spec x.2.opcode code[x.1 + 1]?) := by
  dsimp only
  rw [realInsts_eq]
  have hal : Aligned code code 0 := Or.inr (by simp)
  refine ⟨parseLoop_head? _ code 0 [], ?_, ?_, ?_⟩
  · intro x hx; exact (parseLoop_mem _ code code 0 [] hal x hx).2.2.1
  · exact (parseLoop_chain g spec code code 0 [] hal).1
  · exact (parseLoop_chain g spec code code 0 [] hal).2

/-- C02: counters increase strictly along the whole instruction list, padding included. -/
theorem C02_increasing (g : UInt8 → BitVec 16) (spec : SpecId) (code : List UInt8) :
    (parse g spec code).insts.Pairwise (fun a b => a.1 < b.1) := by
  have hc := (C02_tiling g spec code).2.2.1
  have hp : (realInsts g spec code).Pairwise (fun a b => a.1 < b.1) := by
    have hch : (realInsts g spec code).IsChain (fun a b => a.1 < b.1) :=
      hc.imp (fun a b h => by omega)
    haveI : Trans (fun a b : Nat × InstData => a.1 < b.1) (fun a b : Nat × InstData => a.1 < b.1)
      (fun a b : Nat × InstData => a.1 < b.1) := ⟨fun h1 h2 => Nat.lt_trans h1 h2⟩
    exact List.isChain_iff_pairwise.1 hch
  rw [realInsts_eq] at hp
  have hlt := loop_lt g spec code
  obtain ⟨pad, he, hpad⟩ := parse_insts g spec code
  rw [he, List.pairwise_append]
  rcases hpad with ⟨rfl, _⟩ | ⟨rfl, _⟩
  · refine ⟨hp, List.pairwise_singleton _ _, ?_⟩
    intro a ha b hb
    simp only [List.mem_singleton] at hb
    subst hb; exact hlt a ha
  · exact ⟨hp, List.Pairwise.nil, by simp⟩

/-- C02: `pc_to_inst` is the inverse of `inst_to_pc` on the code. -/
theorem C02_pc_maps (g : UInt8 → BitVec 16) (spec : SpecId) (code : List UInt8) (i pc : Nat)
    (hpc : pc < code.length) :
    (parse g spec code).pcToInst pc = some i ↔ (parse g spec code).instPc i = some pc := by
  have hinc := C02_increasing g spec code
  have hcode : (parse g spec code).code = code := rfl
  unfold Parsed.pcToInst Parsed.instPc
  rw [hcode, if_pos hpc, List.findIdx?_eq_some_iff_getElem]
  constructor
  · rintro ⟨hi, h1, _⟩
    rw [List.getElem?_eq_getElem hi]
    simpa using h1
  · intro h
    cases hx : (parse g spec code).insts[i]? with
    | none => rw [hx] at h; simp at h
    | some x =>
      rw [hx] at h
      simp only [Option.map_some, Option.some.injEq] at h
      obtain ⟨hi, hxi⟩ := List.getElem?_eq_some_iff.1 hx
      refine ⟨hi, by rw [hxi, h]; simp, ?_⟩
      intro j hj
      have := List.pairwise_iff_getElem.1 hinc j i (by omega) hi hj
      rw [hxi, h] at this
      simp only [beq_iff_eq]; omega

/-- `PUSH2 0x5b00; SWAPN 0x5b (JUMPDEST); truncated PUSH3` on Amsterdam. -/
example : ((parse (fun _ => 3) SpecId.AMSTERDAM [0x61, 0x5b, 0x00, 0xe7, 0x5b, 0x62, 0x01]).insts.map
    fun x => (x.1, x.2.opcode)) = [(0, 0x61), (3, 0xe7), (4, 0x5b), (5, 0x62), (7, 0x00)] := by
  decide +kernel

/-! ## C01 -/

/-- Any element of a chain has a successor in the chain or is last. -/
theorem chain_succ {α : Type} {R : α → α → Prop} {l : List α} (h : l.IsChain R) {x : α} (hx : x ∈ l) :
    (∃ y ∈ l, R x y) ∨ l.getLast? = some x := by
  induction l with
  | nil => simp at hx
  | cons a l ih =>
    cases l with
    | nil => simp at hx; right; simp [hx]
    | cons b l =>
      rw [List.isChain_cons_cons] at h
      rcases List.mem_cons.1 hx with rfl | hx
      · left; exact ⟨b, by simp, h.1⟩
      · rcases ih h.2 hx with ⟨y, hy, hR⟩ | hl
        · left; exact ⟨y, List.mem_cons_of_mem _ hy, hR⟩
        · right; simpa using hl

/-- A property of the head that is passed along the chain holds everywhere. -/
theorem chain_all {α : Type} {R : α → α → Prop} {P : α → Prop} {l : List α} (h : l.IsChain R)
    (h0 : ∀ a, l.head? = some a → P a) (hs : ∀ a ∈ l, ∀ b ∈ l, R a b → P a → P b) :
    ∀ x ∈ l, P x := by
  induction l with
  | nil => simp
  | cons a l ih =>
    have ha : P a := h0 a rfl
    intro x hx
    rcases List.mem_cons.1 hx with rfl | hx
    · exact ha
    · cases l with
      | nil => simp at hx
      | cons b l =>
        rw [List.isChain_cons_cons] at h
        refine ih h.2 ?_ ?_ x hx
        · intro c hc
          simp at hc; subst hc
          exact hs a (by simp) b (by simp) h.1 ha
        · intro c hc d hd; exact hs c (List.mem_cons_of_mem _ hc) d (List.mem_cons_of_mem _ hd)

/-- The codes on which the parser agrees with the EVM scan: no opcode 0xe6..0xe8 seen by the scan is
directly followed by a PUSH1..PUSH32 byte. Only relevant from Amsterdam on. -/
def NoPushImmediate (code : List UInt8) : Prop :=
  ∀ i o b, Spec.ScanPos code i → code[i]? = some o → code[i + 1]? = some b →
    0xe6 ≤ o.toNat → o.toNat ≤ 0xe8 → ¬ (0x60 ≤ b.toNat ∧ b.toNat ≤ 0x7f)

theorem isValidJump_iff (g : UInt8 → BitVec 16) (spec : SpecId) (code : List UInt8) (pc : Nat) :
    (parse g spec code).isValidJump pc = true ↔
      ∃ x ∈ realInsts g spec code, x.1 = pc ∧ x.2.opcode = 0x5b := by
  unfold Parsed.isValidJump
  rw [realInsts_eq]
  obtain ⟨pad, he, hpad⟩ := parse_insts g spec code
  rw [he]
  rcases hpad with ⟨rfl, _⟩ | ⟨rfl, _⟩
  · simp only [List.any_append, List.any_cons, List.any_nil, Bool.or_false, Bool.or_eq_true,
      List.any_eq_true, Bool.and_eq_true, beq_iff_eq]
    constructor
    · rintro (h | ⟨_, h⟩)
      · exact h
      · exact absurd h (by decide)
    · intro h; exact Or.inl h
  · simp only [List.append_nil, List.any_eq_true, Bool.and_eq_true, beq_iff_eq]

/-- C01, full statement: for every fork and code, the compiler's valid jump destinations are those
of the EVM. -/
def C01_jumpdests : Prop :=
  ∀ (g : UInt8 → BitVec 16) (spec : SpecId) (code : List UInt8) (pc : Nat),
    (parse g spec code).isValidJump pc = true ↔ Spec.IsJumpDest code pc

/-- C01, proved part: the equivalence holds in every fork before Amsterdam for all codes, and from
Amsterdam on for all codes in which no DUPN/SWAPN/EXCHANGE is followed by a PUSH1..PUSH32 byte.
Missing: that last class of codes, where the code is wrong (see `C01_jumpdests_fails`). -/
theorem C01_jumpdests_partial (g : UInt8 → BitVec 16) (spec : SpecId) (code : List UInt8) (pc : Nat)
    (hok : spec < SpecId.AMSTERDAM ∨ NoPushImmediate code) :
    (parse g spec code).isValidJump pc = true ↔ Spec.IsJumpDest code pc := by
  rw [isValidJump_iff]
  obtain ⟨hhead, hop, hchain, hlast⟩ := C02_tiling g spec code
  have hmem : ∀ x ∈ realInsts g spec code, x.1 < code.length := by
    intro x hx; exact (List.getElem?_eq_some_iff.1 (hop x hx)).1
  generalize realInsts g spec code = l at *
  -- successor in the list
  have hsucc : ∀ x ∈ l, x.1 + 1 + Spec.immLen spec x.2.opcode code[x.1 + 1]? < code.length →
      ∃ y ∈ l, y.1 = x.1 + 1 + Spec.immLen spec x.2.opcode code[x.1 + 1]? := by
    intro x hx hlt
    rcases chain_succ hchain hx with h | h
    · exact h
    · have := hlast x h; omega
  have hscan : ∀ x ∈ l, Spec.ScanPos code x.1 := by
    apply chain_all (P := fun x => Spec.ScanPos code x.1) hchain
    · intro a ha
      rw [ha] at hhead
      simp only [Option.map_some] at hhead
      split at hhead
      · cases hhead
      · rw [Option.some.inj hhead]; exact .zero
    · intro a ha b hb hR hPa
      rw [hR]
      have hao := hop a ha
      by_cases hp : 0x60 ≤ a.2.opcode.toNat ∧ a.2.opcode.toNat ≤ 0x7f
      · have := Spec.ScanPos.next hPa hao
        simpa [Spec.pushDataLen, Spec.immLen, hp] using this
      · have h1 : Spec.ScanPos code (a.1 + 1) := by
          have := Spec.ScanPos.next hPa hao
          simpa [Spec.pushDataLen, hp] using this
        unfold Spec.immLen
        rw [if_neg hp]
        split
        · rename_i he
          have hb1 := hmem b hb
          rw [hR] at hb1
          unfold Spec.immLen at hb1
          rw [if_neg hp, if_pos he] at hb1
          have hc : a.1 + 1 < code.length := by omega
          have hcg := List.getElem?_eq_getElem hc
          have hnp := (hok.resolve_left (Nat.not_lt.2 he.2.2.1)) _ _ _ hPa hao hcg he.1 he.2.1
          have := Spec.ScanPos.next h1 hcg
          simpa [Spec.pushDataLen, hnp] using this
        · exact h1
  constructor
  · rintro ⟨x, hx, rfl, hxo⟩
    exact ⟨hscan x hx, hxo ▸ hop x hx⟩
  · rintro ⟨hscanpc, hcode⟩
    -- every scan position is an instruction, or the non-0x5b immediate of a DUPN-like one
    have key : ∀ q, Spec.ScanPos code q → q < code.length →
        (∃ x ∈ l, x.1 = q) ∨
        (∃ x ∈ l, x.1 + 1 = q ∧ Spec.immLen spec x.2.opcode code[x.1 + 1]? = 1 ∧
          (0xe6 ≤ x.2.opcode.toNat ∧ x.2.opcode.toNat ≤ 0xe8 ∧ SpecId.AMSTERDAM ≤ spec ∧
            code[x.1 + 1]? ≠ some 0x5b)) := by
      intro q hq
      induction hq with
      | zero =>
        intro h0
        left
        rw [if_neg (by intro h; simp [h] at h0)] at hhead
        cases l with
        | nil => simp at hhead
        | cons a l => exact ⟨a, by simp, by simpa using hhead⟩
      | @next i o hi hio ih =>
        intro hlt
        rcases ih (by omega) with ⟨x, hx, rfl⟩ | ⟨x, hx, rfl, hone, he⟩
        · have hxo : x.2.opcode = o := by
            have := hop x hx; rw [hio] at this; exact (Option.some.inj this).symm
          by_cases hp : 0x60 ≤ o.toNat ∧ o.toNat ≤ 0x7f
          · left
            have e : Spec.immLen spec x.2.opcode code[x.1 + 1]? = Spec.pushDataLen o := by
              simp [Spec.immLen, Spec.pushDataLen, hxo, hp]
            rw [← e] at hlt ⊢
            exact hsucc x hx hlt
          · have e0 : Spec.pushDataLen o = 0 := by simp [Spec.pushDataLen, hp]
            rw [e0] at hlt ⊢
            by_cases he : 0xe6 ≤ x.2.opcode.toNat ∧ x.2.opcode.toNat ≤ 0xe8 ∧
                SpecId.AMSTERDAM ≤ spec ∧ code[x.1 + 1]? ≠ some 0x5b
            · right
              refine ⟨x, hx, by omega, ?_, he⟩
              unfold Spec.immLen
              rw [hxo] at he ⊢
              rw [if_neg hp, if_pos he]
            · left
              have e : Spec.immLen spec x.2.opcode code[x.1 + 1]? = 0 := by
                unfold Spec.immLen
                rw [if_neg (by rw [hxo]; exact hp), if_neg he]
              have := hsucc x hx (by rw [e]; exact hlt)
              rwa [e] at this
        · left
          have hnp := (hok.resolve_left (Nat.not_lt.2 he.2.2.1)) x.1 _ o
            (hscan x hx) (hop x hx) hio he.1 he.2.1
          have e0 : Spec.pushDataLen o = 0 := by simp [Spec.pushDataLen, hnp]
          rw [e0] at hlt ⊢
          have := hsucc x hx (by rw [hone]; omega)
          rw [hone] at this
          simpa using this
    have hlt : pc < code.length := (List.getElem?_eq_some_iff.1 hcode).1
    rcases key pc hscanpc hlt with ⟨x, hx, rfl⟩ | ⟨x, hx, rfl, _, he⟩
    · refine ⟨x, hx, rfl, ?_⟩
      have := hop x hx; rw [hcode] at this; exact (Option.some.inj this).symm
    · exact absurd hcode he.2.2.2

/-- C01 fails from Amsterdam on: in `PUSH1 5; JUMP; DUPN 0x60; 0x5b; STOP` the EVM takes 0x60 (PUSH1)
as an opcode of the scan, so the 0x5b at 5 is push data; the compiler accepts 5 as a destination. -/
theorem C01_jumpdests_fails : ¬ C01_jumpdests := by
  intro h
  have h1 := (h (fun _ => 3) SpecId.AMSTERDAM [0x60, 0x05, 0x56, 0xe6, 0x60, 0x5b, 0x00] 5).1
    (by decide +kernel)
  have key : ∀ q, Spec.ScanPos [0x60, 0x05, 0x56, 0xe6, 0x60, 0x5b, 0x00] q → q ≠ 5 ∧ q ≠ 1 := by
    intro q hq
    induction hq with
    | zero => decide
    | @next i o hi hio ih =>
      match i, hio, ih with
      | 0, hio, _ => cases hio; decide
      | 1, _, ih => exact absurd rfl ih.2
      | 2, hio, _ => cases hio; decide
      | 3, hio, _ => cases hio; decide
      | 4, hio, _ => cases hio; decide
      | 5, _, ih => exact absurd rfl ih.1
      | 6, hio, _ => cases hio; decide
      | n + 7, hio, _ => simp at hio
  exact (key 5 h1.1).1 rfl

/-- Hypothesis of `C01_jumpdests_partial` met non-trivially: Amsterdam, a DUPN whose immediate is
0x5b, a PUSH hiding a 0x5b, and a real JUMPDEST. -/
example : NoPushImmediate [0xe6, 0x5b, 0x60, 0x5b, 0x5b] ∧
    (parse (fun _ => 3) SpecId.AMSTERDAM [0xe6, 0x5b, 0x60, 0x5b, 0x5b]).isValidJump 1 = true ∧
    (parse (fun _ => 3) SpecId.AMSTERDAM [0xe6, 0x5b, 0x60, 0x5b, 0x5b]).isValidJump 3 = false ∧
    (parse (fun _ => 3) SpecId.AMSTERDAM [0xe6, 0x5b, 0x60, 0x5b, 0x5b]).isValidJump 4 = true := by
  refine ⟨?_, by decide +kernel, by decide +kernel, by decide +kernel⟩
  intro i o b _ ho hb h1 h2
  match i, ho, hb with
  | 0, _, hb => cases hb; decide
  | 1, ho, _ => cases ho; exact absurd h1 (by decide)
  | 2, ho, _ => cases ho; exact absurd h1 (by decide)
  | 3, ho, _ => cases ho; exact absurd h1 (by decide)
  | 4, ho, _ => cases ho; exact absurd h1 (by decide)
  | n + 5, ho, _ => simp at ho

/-! ## C03 -/

/-- `n` bytes of `tail`, zero-padded on the right. -/
def padTake (tail : List UInt8) (n : Nat) : List UInt8 :=
  tail.take n ++ List.replicate (n - tail.length) 0

theorem padTake_succ (tail : List UInt8) (n : Nat) :
    padTake tail (n + 1) = padTake tail n ++ [(tail[n]?).getD 0] := by
  unfold padTake
  by_cases h : n < tail.length
  · rw [show n + 1 - tail.length = 0 by omega, show n - tail.length = 0 by omega,
      List.take_add_one, List.getElem?_eq_getElem h]
    simp
  · rw [List.getElem?_eq_none (by omega), List.take_of_length_le (by omega),
      List.take_of_length_le (by omega), show n + 1 - tail.length = (n - tail.length) + 1 by omega,
      List.replicate_succ']
    simp

theorem foldl_padTake (code : List UInt8) (pc n : Nat) :
    (padTake (code.drop (pc + 1)) n).foldl (fun acc b => acc * 256 + b.toNat) 0 =
      Spec.pushValue code pc n := by
  induction n with
  | zero => simp [padTake, Spec.pushValue]
  | succ n ih =>
    rw [padTake_succ, List.foldl_append, ih]
    simp only [List.foldl_cons, List.foldl_nil, Spec.pushValue, Spec.codeByte, List.getElem?_drop]
    cases code[pc + 1 + n]? <;> rfl

theorem immValue_eq (o : UInt8) (code : List UInt8) (pc : Nat) :
    immValue o (code.drop (pc + 1)) = BitVec.ofNat 256 (Spec.pushValue code pc (minImmLen o)) := by
  rw [← foldl_padTake]
  generalize code.drop (pc + 1) = tail
  generalize hn : minImmLen o = n
  unfold immValue fromBeSlice padTake
  rw [hn]
  dsimp only
  rw [List.length_take]
  by_cases h : n ≤ tail.length
  · rw [if_pos (by omega), show n - tail.length = 0 by omega]; simp
  · rw [if_neg (by omega), show min n tail.length = tail.length by omega]
    by_cases h2 : tail = []
    · subst h2
      rw [if_neg (by simp)]
      have : ∀ k : Nat, (List.replicate k (0:UInt8)).foldl (fun acc b => acc * 256 + b.toNat) 0 = 0 := by
        intro k
        induction k with
        | zero => rfl
        | succ k ih => rw [List.replicate_succ, List.foldl_cons]; exact ih
      simp [this]
    · rw [if_pos]
      rw [List.take_of_length_le (by omega)]; exact h2

/-- C03: in every code of at most 2^31 bytes, the constant attached to each PUSHn instruction is the
big-endian value of the `n` bytes after it, reading zeros beyond the end of the code. -/
theorem C03_push_value (g : UInt8 → BitVec 16) (spec : SpecId) (code : List UInt8)
    (hlen : code.length ≤ 2 ^ 31) (i pc : Nat) (d : InstData)
    (hi : (parse g spec code).insts[i]? = some (pc, d))
    (hpush : 0x5f ≤ d.opcode.toNat ∧ d.opcode.toNat ≤ 0x7f) :
    (parse g spec code).pushValue i =
      some (BitVec.ofNat 256 (Spec.pushValue code pc (d.opcode.toNat - 0x5f))) := by
  have hmem : (pc, d) ∈ (parseLoop (makeMap g spec) code 0 []).1 := by
    obtain ⟨pad, he, hpad⟩ := parse_insts g spec code
    have := List.mem_of_getElem? hi
    rw [he, List.mem_append] at this
    rcases this with h | h
    · exact h
    · rcases hpad with ⟨rfl, _⟩ | ⟨rfl, _⟩
      · simp only [List.mem_singleton, Prod.mk.injEq] at h
        rw [h.2] at hpush
        exact absurd hpush (by decide)
      · simp at h
  have hal : Aligned code code 0 := Or.inr (by simp)
  obtain ⟨_, _, _, it0, _, hpre, hd⟩ := parseLoop_mem (makeMap g spec) code code 0 [] hal _ hmem
  have hpool := parseLoop_pool (makeMap g spec) code 0 []
  have hip : isPush d.opcode = true := (isPush_table _).2 hpush
  have hfield : ∀ tail, instDataField d.opcode pc tail it0 =
      ((U256Imm.new (immValue d.opcode tail) it0).1.raw,
        (U256Imm.new (immValue d.opcode tail) it0).2) := by
    intro tail; simp [instDataField, hip]
  simp only [hfield] at hpre hd
  have hget := U256Imm.new_get (immValue d.opcode (code.drop (pc + 1))) it0 (by
    have := hpre.length_le
    simp only [List.length_nil, U256Imm.TAG] at *; omega)
  have hget' := U256Imm.get_mono hpre hget
  have hmin : minImmLen d.opcode = d.opcode.toNat - 0x5f := by
    have := minImmLen_table d.opcode
    split at this
    · exact this
    · split at this <;> omega
  unfold Parsed.pushValue
  rw [hi]
  dsimp only
  rw [immValue_eq, hmin] at hget'
  have hdata : d.data = (U256Imm.new (immValue d.opcode (code.drop (pc + 1))) it0).1.raw := by
    rw [hd]; rfl
  rw [hdata, immValue_eq, hmin]
  exact hget'

/-- `PUSH1 7; PUSH4 0x80aabb` truncated by one byte: the second value is 0x80aabb00, padded on the
right. -/
example : (parse (fun _ => 3) SpecId.CANCUN [0x60, 0x07, 0x63, 0x80, 0xaa, 0xbb]).pushValue 1 =
    some 0x80aabb00 := by decide +kernel

/-! ## C04 -/

/-- Specification: execution cannot continue to the next instruction after opcode `o`. -/
def Spec.endsBlock (spec : SpecId) (o : UInt8) : Prop :=
  o ∈ [0x00, 0x56, 0xf3, 0xfd, 0xfe, 0xff] ∨ ¬ Spec.activeIn spec o.toNat

theorem canFallThrough_parsed {g : UInt8 → BitVec 16} {spec : SpecId} {o : UInt8}
    {imm : Option (List UInt8)} {data : Nat} :
    (mkInst (makeMap g spec) o imm data).canFallThrough = false ↔ Spec.endsBlock spec o := by
  have hact := opActive_iff g spec o
  unfold Spec.endsBlock
  rw [← hact]
  unfold opActive
  simp only [InstData.canFallThrough, InstData.isDiverging, InstData.hasConstJumpiCondition, mkInst]
  generalize (makeMap g spec o).isUnknown = u
  generalize (makeMap g spec o).isDisabled = d
  have h1 : (o != op.JUMP) = false ↔ o = 0x56 := by simp
  by_cases hj : o = 0x56
  · subst hj; simp
  · have : (o == op.JUMP) = false := by simpa using hj
    have h2 : (o != op.JUMP) = true := by simp [bne, this]
    simp only [this, h2, Bool.false_and, Bool.false_or, Bool.and_true, Bool.and_false, Bool.not_false]
    have : [op.STOP, op.RETURN, op.REVERT, op.INVALID, op.SELFDESTRUCT].contains o = true ↔
        o ∈ [0x00, 0x56, 0xf3, 0xfd, 0xfe, 0xff] := by
      rw [List.contains_iff_mem]
      simp [hj]
    rw [← this]
    generalize [op.STOP, op.RETURN, op.REVERT, op.INVALID, op.SELFDESTRUCT].contains o = c
    cases u <;> cases d <;> cases c <;> simp

/-- C04: the instruction list is never empty and its last instruction never falls through; a single
STOP at the end of the code is appended exactly when the code is empty or its last instruction can
fall through, and nothing else changes. -/
theorem C04_stop_padding (g : UInt8 → BitVec 16) (spec : SpecId) (code : List UInt8) :
    let insts := (parse g spec code).insts
    let real := realInsts g spec code
    (∃ x, insts.getLast? = some x ∧ Spec.endsBlock spec x.2.opcode) ∧
    ((∃ x, real.getLast? = some x ∧ Spec.endsBlock spec x.2.opcode) → insts = real) ∧
    ((∀ x, real.getLast? = some x → ¬ Spec.endsBlock spec x.2.opcode) →
      ∃ d, insts = real ++ [(code.length, d)] ∧ d.opcode = 0x00 ∧ d.flags = ({ } : InstFlags)) := by
  dsimp only
  have hfall : ∀ x ∈ (parseLoop (makeMap g spec) code 0 []).1,
      (x.2.canFallThrough = false ↔ Spec.endsBlock spec x.2.opcode) := by
    intro x hx
    obtain ⟨_, _, _, it0, _, _, hd⟩ :=
      parseLoop_mem (makeMap g spec) code code 0 [] (Or.inr (by simp)) _ hx
    have := canFallThrough_parsed (g := g) (spec := spec) (o := x.2.opcode)
      (imm := (iterNext (makeMap g spec) x.2.opcode (code.drop (x.1 + 1))).1)
      (data := (instDataField x.2.opcode x.1 (code.drop (x.1 + 1)) it0).1)
    rw [← hd] at this
    exact this
  rw [realInsts_eq]
  obtain ⟨pad, he, hpad⟩ := parse_insts g spec code
  rw [he]
  generalize (parseLoop (makeMap g spec) code 0 []).1 = l at *
  have hlm : ∀ x, l.getLast? = some x → x ∈ l := fun x h => List.mem_of_getLast? h
  rcases hpad with ⟨rfl, h⟩ | ⟨rfl, x, hx, hc⟩
  · refine ⟨⟨(code.length, InstData.mk' op.STOP), by simp, Or.inl (by simp [InstData.mk'])⟩, ?_, ?_⟩
    · rintro ⟨x, hx, hends⟩
      have h1 := h x hx
      rw [← hfall x (hlm x hx), h1] at hends
      cases hends
    · intro _; exact ⟨_, rfl, rfl, rfl⟩
  · have hends := (hfall x (hlm x hx)).1 hc
    refine ⟨⟨x, by simpa using hx, hends⟩, by simp, ?_⟩
    intro h; exact absurd hends (h x hx)

example : (parse (fun _ => 3) SpecId.CANCUN []).insts.map (fun x => (x.1, x.2.opcode)) = [(0, 0)] ∧
    (parse (fun _ => 3) SpecId.CANCUN [0x60, 0x01]).insts.map (fun x => (x.1, x.2.opcode)) =
      [(0, 0x60), (2, 0)] ∧
    (parse (fun _ => 3) SpecId.CANCUN [0x60, 0x01, 0xfd]).insts.map (fun x => (x.1, x.2.opcode)) =
      [(0, 0x60), (2, 0xfd)] := by decide +kernel

/-! ## C08: the operand-free PC opcode -/

/-- C08: the counter recorded for a PC instruction (which constant folding and translation push) is
its own program counter. -/
theorem C08_pc_value (g : UInt8 → BitVec 16) (spec : SpecId) (code : List UInt8)
    (x : Nat × InstData) (hx : x ∈ (parse g spec code).insts) (hpc : x.2.opcode = op.PC) :
    x.2.data = x.1 := by
  obtain ⟨pad, he, hpad⟩ := parse_insts g spec code
  rw [he, List.mem_append] at hx
  rcases hx with hx | hx
  · obtain ⟨_, _, _, it0, _, _, h⟩ := parseLoop_mem _ code code 0 [] (Or.inr (by simp)) x hx
    rw [h, hpc]
    rfl
  · rcases hpad with ⟨rfl, _⟩ | ⟨rfl, _⟩
    · simp only [List.mem_singleton] at hx
      subst hx
      have hd : op.STOP = op.PC := hpc
      exact absurd hd (by decide)
    · simp at hx

example : ((parse (fun _ => 2) SpecId.OSAKA [0x61, 0x58, 0x58, 0x58]).insts.map
    fun x => (x.1, x.2.opcode, x.2.data)) =
      [(0, 0x61, 0x80005858), (3, 0x58, 3), (4, 0x00, 0)] := by decide +kernel

end Verif
