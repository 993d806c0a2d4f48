import Verif.Lemmas.Asm
import Verif.Props.Parse
import Verif.Props.Opcode
/-!
# Lemmas: decoding assembled code
-/

namespace Verif.Asm
open Spec

/-- A chunk that the decoder consumes in one step. -/
def Chunky (infos : UInt8 → OpcodeInfo) (c : List UInt8) : Prop :=
  match c with
  | [] => True
  | o :: bs => ∀ rest, skipLen infos o (bs ++ rest) = bs.length

/-- Instruction positions of a list of chunks. -/
def chunkInsts : List (List UInt8) → Nat → List (Nat × UInt8)
  | [], _ => []
  | [] :: r, pc => chunkInsts r pc
  | (o :: bs) :: r, pc => (pc, o) :: chunkInsts r (pc + 1 + bs.length)

theorem parseLoop_chunks (infos : UInt8 → OpcodeInfo) (cs : List (List UInt8)) (pc : Nat) (it : Interner)
    (h : ∀ c ∈ cs, Chunky infos c) :
    (parseLoop infos cs.flatten pc it).1.map (fun x => (x.1, x.2.opcode)) = chunkInsts cs pc := by
  induction cs generalizing pc it with
  | nil => simp [parseLoop_nil, chunkInsts]
  | cons c r ih =>
    have ih' := fun pc it => ih pc it fun x hx => h x (List.mem_cons_of_mem _ hx)
    cases c with
    | nil => simp only [List.flatten_cons, List.nil_append, chunkInsts]; exact ih' pc it
    | cons o bs =>
      have hc := h _ List.mem_cons_self r.flatten
      rw [List.flatten_cons, List.cons_append, parseLoop_cons, loopNext_eq, loopAdvance_eq, hc]
      · simp only [List.map_cons, chunkInsts, List.drop_left]
        rw [ih', Nat.add_assoc]
        rfl
      · rw [hc]; simp

theorem chunkInsts_get (cs : List (List UInt8)) (pc i : Nat) (o : UInt8) (bs : List UInt8)
    (h : cs[i]? = some (o :: bs)) :
    (chunkInsts cs pc)[((cs.take i).filter (· ≠ [])).length]? = some (pc + offset cs i, o) := by
  induction cs generalizing pc i with
  | nil => simp at h
  | cons c r ih =>
    cases i with
    | zero =>
      simp only [List.getElem?_cons_zero, Option.some.injEq] at h
      subst h
      simp [chunkInsts, offset]
    | succ i =>
      simp only [List.getElem?_cons_succ] at h
      cases c with
      | nil =>
        have := ih pc i h
        simpa [chunkInsts, offset] using this
      | cons o' bs' =>
        have := ih (pc + 1 + bs'.length) i h
        simp only [chunkInsts, List.take_succ_cons]
        rw [List.filter_cons_of_pos (by simp), List.length_cons, List.getElem?_cons_succ, this]
        simp [offset]; omega

theorem chunkInsts_length (cs : List (List UInt8)) (pc : Nat) :
    (chunkInsts cs pc).length = (cs.filter (· ≠ [])).length := by
  induction cs generalizing pc with
  | nil => rfl
  | cons c r ih =>
    cases c with
    | nil => simp [chunkInsts, ih]
    | cons o bs => simp [chunkInsts, ih]

/-- The constant attached to an instruction with an immediate (as in C03, for all such opcodes). -/
theorem parse_value (g : UInt8 → BitVec 16) (spec : SpecId) (code : List UInt8)
    (hlen : code.length ≤ 2 ^ 31) (i pc : Nat) (d : InstData)
    (hi : (parse g spec code).insts[i]? = some (pc, d))
    (hop : (isPush d.opcode || isEip8024 d.opcode) = true) :
    (parse g spec code).pushValue i =
      some (BitVec.ofNat 256 (Verif.Spec.pushValue code pc (minImmLen d.opcode))) := by
  have hmem : (pc, d) ∈ (parseLoop (makeMap g spec) code 0 []).1 := by
    obtain ⟨pad, he, hpad⟩ := parse_insts g spec code
    have := List.mem_of_getElem? hi
    rw [he, List.mem_append] at this
    rcases this with h | h
    · exact h
    · rcases hpad with ⟨rfl, _⟩ | ⟨rfl, _⟩
      · simp only [List.mem_singleton, Prod.mk.injEq] at h
        rw [h.2] at hop
        exact absurd hop (by decide)
      · simp at h
  have hal : Aligned code code 0 := Or.inr (by simp)
  obtain ⟨_, _, _, it0, _, hpre, hd⟩ := parseLoop_mem (makeMap g spec) code code 0 [] hal _ hmem
  have hpool := parseLoop_pool (makeMap g spec) code 0 []
  have hfield : ∀ tail, instDataField d.opcode pc tail it0 =
      ((U256Imm.new (immValue d.opcode tail) it0).1.raw,
        (U256Imm.new (immValue d.opcode tail) it0).2) := by
    intro tail; simp only [instDataField, hop, if_true]
  simp only [hfield] at hpre hd
  have hget := U256Imm.new_get (immValue d.opcode (code.drop (pc + 1))) it0 (by
    have := hpre.length_le
    simp only [List.length_nil, U256Imm.TAG] at *; omega)
  have hget' := U256Imm.get_mono hpre hget
  unfold Parsed.pushValue
  rw [hi]
  dsimp only
  rw [immValue_eq] at hget'
  have hdata : d.data = (U256Imm.new (immValue d.opcode (code.drop (pc + 1))) it0).1.raw := by
    rw [hd]; rfl
  rw [hdata, immValue_eq]
  exact hget'

theorem offset_drop (cs : List (List UInt8)) (i : Nat) :
    cs.flatten.drop (offset cs i) = (cs.drop i).flatten := by
  conv => lhs; rw [← List.take_append_drop i cs, List.flatten_append]
  unfold offset
  rw [List.drop_append_of_le_length (by simp)]
  simp

theorem pushValue_chunk (cs : List (List UInt8)) (i : Nat) (o : UInt8) (bs : List UInt8)
    (h : cs[i]? = some (o :: bs)) :
    Verif.Spec.pushValue cs.flatten (offset cs i) bs.length = beValue bs := by
  have h1 : cs.flatten.drop (offset cs i + 1) = bs ++ (cs.drop (i + 1)).flatten := by
    rw [← List.drop_drop, offset_drop]
    obtain ⟨hi, hc⟩ := List.getElem?_eq_some_iff.1 h
    rw [List.drop_eq_getElem_cons hi, hc]
    simp
  rw [← foldl_padTake, h1]
  unfold padTake beValue
  rw [List.take_left, List.length_append, show bs.length - (bs.length + _) = 0 by omega]
  simp

theorem foldl_lt (bs : List UInt8) (a : Nat) :
    bs.foldl (fun acc b => acc * 256 + b.toNat) a < (a + 1) * 256 ^ bs.length := by
  induction bs generalizing a with
  | nil => simp
  | cons b r ih =>
    rw [List.foldl_cons, List.length_cons, Nat.pow_succ]
    refine Nat.lt_of_lt_of_le (ih _) ?_
    have := b.toNat_lt
    rw [Nat.mul_comm (256 ^ r.length) 256, ← Nat.mul_assoc]
    exact Nat.mul_le_mul_right _ (by omega)

theorem beValue_lt (bs : List UInt8) : beValue bs < 256 ^ bs.length := by
  have := foldl_lt bs 0
  simpa [beValue] using this

theorem ofNat_toNat (o w : Nat) (h : o + w < 256) : (UInt8.ofNat (o + w)).toNat = o + w :=
  UInt8.toNat_ofNat_of_lt' h

/-- Shape of the bytes of one instruction. -/
theorem inst_chunk {g : UInt8 → BitVec 16} {spec : SpecId} {items : List Item}
    {chunks : List (List UInt8)} {ins : Inst} {c : List UInt8} (h : ItemOk items chunks (.inst ins) c)
    (hw : Written spec ins) :
    ∃ o bs, c = o :: bs ∧ Chunky (makeMap g spec) (o :: bs) ∧ OpcodeOk ins o ∧
      (∀ imm, ins.imm = some imm → ins.kind ≠ .none →
        ImmVal items chunks imm (beValue bs) ∧ bs.length ≤ 32 ∧ minImmLen o = bs.length ∧
        (isPush o || isEip8024 o) = true) := by
  have hmin := minImmLen_table
  unfold ItemOk at h
  unfold Written at hw
  unfold OpcodeOk
  dsimp only at h
  cases hk : ins.kind with
  | none =>
    rw [hk] at h hw
    dsimp only at h hw
    refine ⟨ins.opcode, [], h, ?_, rfl, fun _ _ hc => absurd rfl hc⟩
    intro rest
    rw [skipLen_eq]
    unfold Verif.Spec.immLen
    rw [if_neg hw.1, if_neg (fun hc => hw.2 ⟨hc.1, hc.2.1⟩)]
    rfl
  | fixed size =>
    rw [hk] at h hw
    dsimp only at h hw
    obtain ⟨imm, v, bs, h1, h2, h3, h4, h5⟩ := h
    refine ⟨ins.opcode, bs, h3, ?_, rfl, ?_⟩
    · intro rest
      rw [skipLen_eq]
      unfold Verif.Spec.immLen
      rcases hw with ⟨a, b, e⟩ | ⟨a, b, e, f, n, hn, hne⟩
      · rw [if_pos ⟨a, b⟩]; omega
      · rw [if_neg (by omega), if_pos]
        · omega
        · refine ⟨a, b, e, ?_⟩
          match bs, h4 with
          | [x], _ =>
            simp only [List.cons_append, List.head?_cons, ne_eq, Option.some.injEq]
            intro hx
            rw [hn] at h1
            cases h1
            simp only [ImmVal] at h2
            apply hne
            apply BitVec.eq_of_toNat_eq
            rw [← h2, ← h5, hx]; rfl
          | [], h4 => simp at h4; omega
          | _ :: _ :: _, h4 => simp at h4; omega
    · intro imm' hi _
      rw [h1] at hi
      cases hi
      have ht := hmin ins.opcode
      refine ⟨by rw [h5]; exact h2, ?_, ?_, ?_⟩
      · rcases hw with ⟨a, b, e⟩ | ⟨a, b, e, f, _⟩ <;> omega
      · rcases hw with ⟨a, b, e⟩ | ⟨a, b, e, f, _⟩
        · rw [ht, if_pos ⟨a, b⟩]; omega
        · rw [ht, if_neg (by omega), if_pos ⟨a, b⟩]; omega
      · rw [Bool.or_eq_true, isPush_table, (eip8024_table _).1]
        rcases hw with ⟨a, b, e⟩ | ⟨a, b, e, f, _⟩ <;> omega
  | auto =>
    rw [hk] at h
    dsimp only at h
    obtain ⟨imm, v, bs, h1, h2, h3, h4, h5, h6⟩ := h
    have ho : (UInt8.ofNat (0x5f + bs.length)).toNat = 0x5f + bs.length := ofNat_toNat _ _ (by omega)
    refine ⟨_, bs, h3, ?_, ?_, ?_⟩
    · intro rest
      rw [skipLen_eq]
      unfold Verif.Spec.immLen
      rw [ho]
      by_cases hz : bs.length = 0
      · rw [if_neg (by omega), if_neg (by omega)]; omega
      · rw [if_pos (by omega)]; omega
    · dsimp only; rw [ho]; omega
    · intro imm' hi _
      rw [h1] at hi
      cases hi
      have ht := hmin (UInt8.ofNat (0x5f + bs.length))
      rw [ho] at ht
      refine ⟨by rw [h5]; exact h2, h4, ?_, ?_⟩
      · rw [ht]
        by_cases hz : bs.length = 0
        · rw [if_neg (by omega), if_neg (by omega)]; omega
        · rw [if_pos (by omega)]; omega
      · rw [Bool.or_eq_true, isPush_table, ho]; left; omega

theorem count_eq {spec : SpecId} {items : List Item} {chunks : List (List UInt8)}
    (hA : Assembles items chunks) (hw : ∀ i, Item.inst i ∈ items → Written spec i) (n : Nat) :
    ((chunks.take n).filter (· ≠ [])).length = instsBefore items n := by
  have h : chunks.map (fun c => decide (c ≠ [])) =
      items.map (fun it => match it with | .inst _ => true | .label _ => false) := by
    apply List.ext_getElem
    · simp [hA.1]
    · intro i h1 h2
      simp only [List.length_map] at h1 h2
      simp only [List.getElem_map]
      have hok := hA.2 i _ _ (List.getElem?_eq_getElem h2) (List.getElem?_eq_getElem h1)
      cases hit : items[i] with
      | label nm =>
        rw [hit] at hok
        simp only [ItemOk] at hok
        rw [hok]; rfl
      | inst ins =>
        rw [hit] at hok
        obtain ⟨o, bs, hc, _⟩ := inst_chunk (g := fun _ => 0) hok
          (hw ins (hit ▸ List.getElem_mem h2))
        rw [hc]; simp
  unfold instsBefore
  have e1 : ∀ {α : Type} (p : α → Bool) (l : List α) , (l.filter p).length = (l.map p).countP id := by
    intro α p l
    rw [List.countP_map, ← List.countP_eq_length_filter]; rfl
  rw [e1, e1, List.map_take, List.map_take, h]; rfl

/-! ## The parser -/

theorem parseItems_mem (names : String → Option UInt8) (skip : Nat) (ts : List Token) (items : List Item)
    (h : parseItemsFrom names skip ts = .ok items) (i : Inst) (hi : Item.inst i ∈ items) :
    ∃ word rest k, parseInst names word rest = .ok (i, k) := by
  induction ts generalizing skip items with
  | nil => cases skip <;> (simp only [parseItemsFrom] at h; cases h; simp at hi)
  | cons t ts ih =>
    cases skip with
    | succ skip => exact ih skip items h hi
    | zero =>
      simp only [parseItemsFrom] at h
      split at h
      · split at h
        · cases h
        · cases hr : parseItemsFrom names 0 ts with
          | error e => rw [hr] at h; cases h
          | ok l =>
            rw [hr] at h
            cases h
            simp only [List.mem_cons, reduceCtorEq, false_or] at hi
            exact ih 0 l hr hi
      · cases hp : parseInst names t.src ts with
        | error e => rw [hp] at h; cases h
        | ok p =>
          obtain ⟨j, k⟩ := p
          rw [hp] at h
          dsimp only at h
          cases hr : parseItemsFrom names k ts with
          | error e => rw [hr] at h; cases h
          | ok l =>
            rw [hr] at h
            cases h
            rcases List.mem_cons.1 hi with hi | hi
            · cases hi; exact ⟨_, _, _, hp⟩
            · exact ih k l hr hi
      · cases h

theorem rawInst_written {spec : SpecId} {o raw : UInt8} (ho : 0xe6 ≤ o.toNat ∧ o.toNat ≤ 0xe8)
    (hs : SpecId.AMSTERDAM ≤ spec) (hr : raw ≠ 0x5b) : Written spec (rawInst o raw) := by
  unfold Written rawInst
  refine Or.inr ⟨ho.1, ho.2, hs, rfl, _, rfl, ?_⟩
  intro h
  apply hr
  have := congrArg BitVec.toNat h
  rw [BitVec.toNat_ofNat, Nat.mod_eq_of_lt (by have := raw.toNat_lt; omega)] at this
  exact UInt8.toNat_inj.1 this

theorem encodeSingle_ne : ∀ n : UInt8, encodeSingle n ≠ some 0x5b := by decide +kernel
theorem encodePair_ne (n m : UInt8) : encodePair n m ≠ some 0x5b := by
  intro h
  have := C05_pair_encode_sound n m _ h
  have h2 : decodePair 0x5b = none := by decide
  rw [h2] at this
  cases this

theorem dupswap_table : ∀ n : UInt8, ¬ n < 1 → n ≤ 16 → ∀ b : Bool,
    let o := (if b then op.SWAP1 else op.DUP1) + n - 1
    ¬ (0x60 ≤ o.toNat ∧ o.toNat ≤ 0x7f) ∧ ¬ (0xe6 ≤ o.toNat ∧ o.toNat ≤ 0xe8) := by
  decide +kernel

theorem parseInst_written {names : String → Option UInt8} {spec : SpecId} {word : String}
    {ts : List Token} {i : Inst} {k : Nat} (h : parseInst names word ts = .ok (i, k))
    (hs : SpecId.AMSTERDAM ≤ spec ∨ ¬ (0xe6 ≤ i.opcode.toNat ∧ i.opcode.toNat ≤ 0xe8)) :
    Written spec i := by
  unfold parseInst at h
  split at h
  · split at h <;> cases h
    trivial
  · split at h
    · split at h
      · cases h
      · rename_i n _
        split at h
        · cases h
        · split at h
          · cases h
            rename_i h1 h2
            have := dupswap_table n h1 h2 (decide (word = "SWAP"))
            unfold Written
            simpa using this
          · split at h
            · cases h
            · rename_i raw hraw
              cases h
              have ho : ∀ b : Prop, [Decidable b] → 0xe6 ≤ (if b then op.SWAPN else op.DUPN).toNat ∧
                  (if b then op.SWAPN else op.DUPN).toNat ≤ 0xe8 := by
                intro b _; split <;> decide
              have ho := ho (word = "SWAP")
              refine rawInst_written ho (hs.resolve_right fun f => f ho) ?_
              intro e; rw [e] at hraw; exact encodeSingle_ne n hraw
    · split at h
      · cases h
      · rename_i opcode _
        split at h
        · rename_i hop
          have ho : 0xe6 ≤ opcode.toNat ∧ opcode.toNat ≤ 0xe8 := by
            rcases hop with rfl | rfl <;> decide
          split at h
          · cases h
          · rename_i n _
            split at h
            · cases h
            · rename_i raw hraw
              cases h
              refine rawInst_written ho (hs.resolve_right fun f => f ho) ?_
              intro e; rw [e] at hraw; exact encodeSingle_ne n hraw
        · split at h
          · rename_i hop
            have ho : 0xe6 ≤ opcode.toNat ∧ opcode.toNat ≤ 0xe8 := by
              rw [hop]; decide
            split at h
            · cases h
            · split at h
              · cases h
              · split at h
                · cases h
                · rename_i raw hraw
                  cases h
                  refine rawInst_written ho (hs.resolve_right fun f => f ho) ?_
                  intro e; rw [e] at hraw; exact encodePair_ne _ _ hraw
          · rename_i h1 h2
            have hmin := minImmLen_table opcode
            have hne : ¬ (0xe6 ≤ opcode.toNat ∧ opcode.toNat ≤ 0xe8) := by
              have : ∀ o : UInt8, (0xe6 ≤ o.toNat ∧ o.toNat ≤ 0xe8) →
                  o = op.DUPN ∨ o = op.SWAPN ∨ o = op.EXCHANGE := by decide +kernel
              intro hc
              rcases this opcode hc with h | h | h
              · exact h1 (Or.inl h)
              · exact h1 (Or.inr h)
              · exact h2 h
            rw [if_neg hne] at hmin
            split at h
            · split at h
              · cases h
              · cases h
                unfold Written
                dsimp only
                left
                by_cases hp : 0x60 ≤ opcode.toNat ∧ opcode.toNat ≤ 0x7f
                · rw [if_pos hp] at hmin; exact ⟨hp.1, hp.2, hmin⟩
                · rw [if_neg hp] at hmin; omega
            · have hw : Written spec { opcode := opcode, imm := none, kind := .none } := by
                unfold Written
                dsimp only
                refine ⟨?_, hne⟩
                intro hp; rw [if_pos hp] at hmin; omega
              split at h <;> cases h
              exact hw

end Verif.Asm
