import Verif.Lemmas.AsmDecode
/-!
# Properties C39 (assembler labels) and C40 (assembler round trip)
-/

namespace Verif.Asm
open Spec

/-! ## C39 -/

/-- C39: whenever the assembler succeeds, its output is one byte string per item, each label's value is
the number of bytes before its (last) definition, and every push of a label or literal encodes exactly
that value; automatic pushes use the fewest bytes. -/
theorem C39_labels (items : List Item) (code : List UInt8) (h : layoutAndEmit items = .ok code)
    (hsize : code.length < 2 ^ 64) :
    ∃ chunks, Assembles items chunks ∧ code = chunks.flatten := by
  unfold layoutAndEmit at h
  by_cases hany : items.any hasLabel = true
  · rw [if_pos hany] at h
    cases hl : layoutLoop (8 * items.length + 1) (items.map fun it => (it, 0)) with
    | error e => rw [hl] at h; cases h
    | ok p =>
      obtain ⟨ws, m⟩ := p
      rw [hl] at h
      dsimp only at h
      obtain ⟨h1, h2, h3, h4⟩ := layoutLoop_ok _ _ _ _ (WInv.init items) hl
      have hst := (growWidths_ok _ _ _ _ h4).2.2.2.1
      obtain ⟨chunks, c1, c2, c3⟩ := emitAll_ok _ _ _ h
      have hitems : ws.map (·.1) = items := by
        rw [h1, List.map_map]; exact List.map_id _
      have hsz := sizes_eq c1 c3
      have hget : ∀ i : Nat, (ws[i]?).map (·.1) = items[i]? := by
        intro i; rw [← hitems, List.getElem?_map]
      have hlab : ∀ name p, m.lookup name = some p → LabelAt items chunks name p := by
        intro name p hp
        rw [h3, lookup_lastPos] at hp
        obtain ⟨j, a, b, c⟩ := lastPos_some _ _ _ _ hp
        refine ⟨j, by rw [← hget, a], ?_, by rw [c, hsz]; omega⟩
        intro k hk; rw [← hget]; exact b k hk
      have hlt : ∀ name p, m.lookup name = some p → p < 2 ^ 64 := by
        intro name p hp
        obtain ⟨j, _, _, rfl⟩ := hlab name p hp
        have := offset_le chunks j
        rw [← c2] at this; omega
      have himm : ∀ (i : Inst) v, resolveImm m i.imm = .ok v →
          ∃ imm, i.imm = some imm ∧ ImmVal items chunks imm v.toNat := by
        intro i v hv
        cases hi : i.imm with
        | none => rw [hi] at hv; cases hv
        | some im =>
          rw [hi] at hv
          refine ⟨im, rfl, ?_⟩
          cases im with
          | number n => simp only [resolveImm] at hv; cases hv; rfl
          | label name =>
            simp only [resolveImm] at hv
            cases hm : m.lookup name with
            | none => rw [hm] at hv; cases hv
            | some pc =>
              rw [hm] at hv
              cases hv
              have := hlt name pc hm
              simp only [ImmVal]
              rw [BitVec.toNat_ofNat, Nat.mod_eq_of_lt (by omega)]
              exact hlab name pc hm
      refine ⟨chunks, ⟨?_, ?_⟩, c2⟩
      · rw [c1, ← hitems, List.length_map]
      · intro i it c hi hc
        have hw : ∃ w, ws[i]? = some (it, w) := by
          have := hget i
          rw [hi] at this
          cases hwi : ws[i]? with
          | none => rw [hwi] at this; cases this
          | some x =>
            rw [hwi] at this
            simp only [Option.map_some, Option.some.injEq] at this
            exact ⟨x.2, by rw [← this]⟩
        obtain ⟨w, hw⟩ := hw
        have he := c3 i _ c hw hc
        cases it with
        | label n => simp only [emitItem] at he; cases he; rfl
        | inst ins =>
          have hk := emitItem_ok he
          unfold ItemOk
          dsimp only
          cases hkind : ins.kind with
          | none => rw [hkind] at hk; exact hk
          | fixed size =>
            rw [hkind] at hk
            obtain ⟨v, r1, r2, r3⟩ := hk
            obtain ⟨imm, i1, i2⟩ := himm ins v r1
            exact ⟨imm, v.toNat, _, i1, i2, r3, beBytes_length _ _, beValue_beBytes _ _ r2⟩
          | auto =>
            rw [hkind] at hk
            obtain ⟨v, width, r1, r2, r3, r4⟩ := hk
            obtain ⟨imm, i1, i2⟩ := himm ins v r1
            have hprop : width ≤ 32 ∧ v.toNat < 256 ^ width ∧ (width = 0 ∨ 256 ^ (width - 1) ≤ v.toNat) := by
              cases imm with
              | number n =>
                rw [i1] at r4 r1
                simp only [resolveImm] at r1
                cases r1
                simp only [pushWidth] at r4
                obtain ⟨k, k1, k2, k3, k4⟩ := beTrimmed_spec v
                rw [k2, beBytes_length] at r4
                subst r4
                exact ⟨k1, k3, k4⟩
              | label name =>
                have hmem := List.mem_of_getElem? hw
                have hauto : autoName (.inst ins) = some name := by
                  cases ins; simp only at hkind i1; subst hkind; subst i1; rfl
                obtain ⟨pc, p1, p2, _⟩ := hst _ hmem name hauto
                obtain ⟨w8, hinv⟩ := h2 _ hmem
                have hinv := hinv name hauto
                rw [i1] at r4 r1
                simp only [pushWidth] at r4
                subst r4
                simp only [resolveImm, p1] at r1
                cases r1
                have hpc := hlt name pc p1
                have hv : (BitVec.ofNat 256 pc).toNat = pc := by
                  rw [BitVec.toNat_ofNat, Nat.mod_eq_of_lt (by omega)]
                rw [hv] at r2 ⊢
                dsimp only at w8 p2 hinv
                refine ⟨by omega, ?_, ?_⟩
                · rcases r2 with r2 | r2
                  · subst r2
                    have := minPushWidth_zero (by omega) hpc
                    omega
                  · exact r2
                · rcases hinv with e | ⟨p, e1, e2⟩
                  · exact Or.inl e
                  · rw [h3, lookup_lastPos, e1] at p1
                    cases p1
                    exact Or.inr e2
            refine ⟨imm, v.toNat, beBytes width v.toNat, i1, i2, ?_, ?_, ?_, ?_⟩
            · rw [beBytes_length]; exact r3
            · rw [beBytes_length]; exact hprop.1
            · exact beValue_beBytes _ _ hprop.2.1
            · rw [beBytes_length]
              exact hprop.2.2.imp (fun h => by subst h; rfl) id
  · rw [if_neg hany] at h
    obtain ⟨chunks, c1, c2, c3⟩ := emitAll_ok _ _ _ h
    refine ⟨chunks, ⟨c1, ?_⟩, c2⟩
    intro i it c hi hc
    have he := c3 i _ c hi hc
    cases it with
    | label n => simp only [emitNoLabel] at he; cases he; rfl
    | inst ins =>
      unfold ItemOk
      dsimp only
      simp only [emitNoLabel] at he
      cases hkind : ins.kind with
      | none => rw [hkind] at he; cases he; rfl
      | fixed size =>
        rw [hkind] at he
        dsimp only at he
        split at he
        · rename_i n hn
          rw [encodeImm_some] at he
          by_cases hv : n.toNat < 256 ^ size
          · rw [if_pos hv] at he
            cases he
            exact ⟨_, n.toNat, _, hn, rfl, rfl, beBytes_length _ _, beValue_beBytes _ _ hv⟩
          · rw [if_neg hv] at he; cases he
        · cases he
      | auto =>
        rw [hkind] at he
        dsimp only at he
        split at he
        · rename_i n hn
          simp only [encodeImm] at he
          cases he
          obtain ⟨k, k1, k2, k3, k4⟩ := beTrimmed_spec n
          rw [k2]
          refine ⟨_, n.toNat, beBytes k n.toNat, hn, rfl, ?_, ?_, beValue_beBytes _ _ k3, ?_⟩
          · rw [beBytes_length, ofNat_add_push0]
          · rw [beBytes_length]; exact k1
          · rw [beBytes_length]
            exact k4.imp (fun h => by subst h; rfl) id
        · cases he

/-- C39: the width iteration stops for every list of items. -/
theorem C39_terminates (items : List Item) : layoutAndEmit items ≠ .error .fuel := by
  unfold layoutAndEmit
  split
  · have := layoutLoop_fuel (8 * items.length + 1) (items.map fun it => (it, 0)) (WInv.init items)
      (by simp; omega)
    cases hl : layoutLoop (8 * items.length + 1) (items.map fun it => (it, 0)) with
    | error e =>
      rw [hl] at this
      simpa using this
    | ok p =>
      dsimp only
      refine emitAll_ne_fuel _ ?_ _
      rintro ⟨it, w⟩
      cases it with
      | label n => simp [emitItem]
      | inst i =>
        simp only [emitItem]
        have hr : ∀ e, resolveImm p.2 i.imm = .error e → e ≠ .fuel := by
          intro e he
          unfold resolveImm at he
          split at he
          · cases he; simp
          · cases he
          · split at he <;> cases he
            simp
        have hen : ∀ v n e, encodeImm v (some n) = .error e → e ≠ .fuel := by
          intro v n e he
          rw [encodeImm_some] at he
          split at he <;> cases he
          simp
        cases i.kind with
        | none => simp
        | fixed n =>
          dsimp only
          cases hv : resolveImm p.2 i.imm with
          | error e => simpa using hr e hv
          | ok v =>
            dsimp only
            cases hx : encodeImm v (some n) with
            | error e => simpa using hen _ _ e hx
            | ok b => simp
        | auto =>
          dsimp only
          cases hv : resolveImm p.2 i.imm with
          | error e => simpa using hr e hv
          | ok v =>
            dsimp only
            split
            · cases hx : encodeImm v (some (pushWidth i.imm w v)) with
              | error e => simpa using hen _ _ e hx
              | ok b => simp
            · simp
  · refine emitAll_ne_fuel _ ?_ _
    intro it
    cases it with
    | label n => simp [emitNoLabel]
    | inst i =>
      simp only [emitNoLabel]
      cases i.kind with
      | none => simp
      | fixed n =>
        dsimp only
        split
        · rename_i v _
          rw [encodeImm_some]
          by_cases hv : v.toNat < 256 ^ n
          · rw [if_pos hv]; simp
          · rw [if_neg hv]; simp
        · simp
      | auto =>
        dsimp only
        split
        · simp [encodeImm]
        · simp

/-- `start: PUSH %end; PUSH 0x1234; end: JUMPDEST; PUSH %start`: the label pushes take one byte and
no byte. -/
example : layoutAndEmit
    [.label "start", .inst ⟨0, some (.label "end"), .auto⟩, .inst ⟨0, some (.number 0x1234), .auto⟩,
     .label "end", .inst ⟨0x5b, none, .none⟩, .inst ⟨0, some (.label "start"), .auto⟩] =
    .ok [0x60, 5, 0x61, 0x12, 0x34, 0x5b, 0x5f] := by decide +kernel

/-- A label at offset 256: growing the first push moves the label, and the fixpoint is found. -/
example : (layoutAndEmit (.inst ⟨0, some (.label "x"), .auto⟩ ::
    List.replicate 253 (.inst ⟨0x5b, none, .none⟩) ++ [.label "x"])).toOption.map (·.take 3) =
    some [0x60, 255, 0x5b] ∧
    (layoutAndEmit (.inst ⟨0, some (.label "x"), .auto⟩ ::
    List.replicate 254 (.inst ⟨0x5b, none, .none⟩) ++ [.label "x"])).toOption.map (·.take 3) =
    some [0x61, 1, 1] := by decide +kernel

/-- Two definitions of one name are accepted; the last one counts. -/
example : layoutAndEmit [.label "x", .inst ⟨0x5b, none, .none⟩, .label "x",
    .inst ⟨0, some (.label "x"), .auto⟩] = .ok [0x5b, 0x60, 1] := by decide +kernel

/-! ## C40 -/

/-- C40: code assembled from instructions that the assembler's parser produces decodes, with the
compiler's own decoder, to the same instructions in order: instruction `k` is the `k`-th one written,
at the byte offset where it was emitted, with the opcode written and with the immediate value written
(for a label: its offset). -/
theorem C40_roundtrip (g : UInt8 → BitVec 16) (spec : SpecId) (items : List Item) (code : List UInt8)
    (h : layoutAndEmit items = .ok code) (hsize : code.length ≤ 2 ^ 31)
    (hw : ∀ i, Item.inst i ∈ items → Written spec i) :
    ∃ chunks, Assembles items chunks ∧ code = chunks.flatten ∧
      (Verif.realInsts g spec code).length = instsBefore items items.length ∧
      ∀ (i : Nat) (ins : Inst), items[i]? = some (.inst ins) →
        ∃ d, (Verif.parse g spec code).insts[instsBefore items i]? = some (offset chunks i, d) ∧
          OpcodeOk ins d.opcode ∧
          (∀ imm, ins.imm = some imm → ins.kind ≠ .none →
            ∃ v : Word, ImmVal items chunks imm v.toNat ∧
              (Verif.parse g spec code).pushValue (instsBefore items i) = some v) := by
  obtain ⟨chunks, hA, hcode⟩ := C39_labels items code h (by omega)
  have hchunky : ∀ c ∈ chunks, Chunky (makeMap g spec) c := by
    intro c hc
    obtain ⟨i, hi, rfl⟩ := List.mem_iff_getElem.1 hc
    have hi' : i < items.length := by rw [← hA.1]; exact hi
    have hok := hA.2 i _ _ (List.getElem?_eq_getElem hi') (List.getElem?_eq_getElem hi)
    cases hit : items[i] with
    | label nm => rw [hit] at hok; simp only [ItemOk] at hok; rw [hok]; trivial
    | inst ins =>
      rw [hit] at hok
      obtain ⟨o, bs, hc, h1, _⟩ := inst_chunk (g := g) hok (hw ins (hit ▸ List.getElem_mem hi'))
      rw [hc]; exact h1
  have hreal := parseLoop_chunks (makeMap g spec) chunks 0 [] hchunky
  rw [← hcode, ← Verif.realInsts_eq] at hreal
  refine ⟨chunks, hA, hcode, ?_, ?_⟩
  · have := congrArg List.length hreal
    rw [List.length_map, chunkInsts_length, ← List.take_length (l := chunks), count_eq hA hw, hA.1] at this
    exact this
  · intro i ins hi
    obtain ⟨hlt, hit⟩ := List.getElem?_eq_some_iff.1 hi
    have hlt' : i < chunks.length := by rw [hA.1]; exact hlt
    have hc := List.getElem?_eq_getElem hlt'
    obtain ⟨o, bs, hcs, _, hop, himm⟩ := inst_chunk (g := g) (hA.2 i _ _ hi hc)
      (hw ins (hit ▸ List.getElem_mem hlt))
    rw [hcs] at hc
    have hget := chunkInsts_get chunks 0 i o bs hc
    rw [← hreal, count_eq hA hw, List.getElem?_map] at hget
    cases hr : (Verif.realInsts g spec code)[instsBefore items i]? with
    | none => rw [hr] at hget; cases hget
    | some x =>
      rw [hr] at hget
      simp only [Option.map_some, Option.some.injEq, Prod.mk.injEq] at hget
      obtain ⟨hx1, hx2⟩ := hget
      have hins : (Verif.parse g spec code).insts[instsBefore items i]? = some (offset chunks i, x.2) := by
        obtain ⟨pad, he, _⟩ := Verif.parse_insts g spec code
        rw [Verif.realInsts_eq] at hr
        rw [he, List.getElem?_append_left (List.getElem?_eq_some_iff.1 hr).1, hr]
        rw [Nat.zero_add] at hx1
        rw [← hx1]
      refine ⟨x.2, hins, by rw [hx2]; exact hop, ?_⟩
      intro imm hi' hk
      obtain ⟨q1, q2, q3, q4⟩ := himm imm hi' hk
      have hval := parse_value g spec code hsize _ _ _ hins (by rw [hx2]; exact q4)
      rw [hx2, q3, hcode, pushValue_chunk chunks i o bs hc] at hval
      refine ⟨_, ?_, by rw [hcode]; exact hval⟩
      rw [BitVec.toNat_ofNat, Nat.mod_eq_of_lt]
      · exact q1
      · have := beValue_lt bs
        have h2 : 256 ^ bs.length ≤ 256 ^ 32 := Nat.pow_le_pow_right (by omega) q2
        have h3 : (256 : Nat) ^ 32 = 2 ^ 256 := by decide
        omega

/-- C40: the parser only produces such instructions (those of EIP-8024 only for forks that have
them), for every token stream and every opcode name table. -/
theorem C40_parser (names : String → Option UInt8) (spec : SpecId) (ts : List Token) (items : List Item)
    (h : parseItems names ts = .ok items)
    (hs : SpecId.AMSTERDAM ≤ spec ∨ ∀ i, Item.inst i ∈ items →
      ¬ (0xe6 ≤ i.opcode.toNat ∧ i.opcode.toNat ≤ 0xe8)) :
    ∀ i, Item.inst i ∈ items → Written spec i := by
  intro i hi
  obtain ⟨word, rest, k, hp⟩ := parseItems_mem names 0 ts items h i hi
  exact parseInst_written hp (hs.imp id fun f => f i hi)

/-- C40: a literal is encoded in a fixed width iff it fits; otherwise the source is rejected. -/
theorem C40_fixed_literal (o : UInt8) (n : Word) (size : Nat) :
    (n.toNat < 256 ^ size →
      ∃ bs, bs.length = size ∧ beValue bs = n.toNat ∧
        layoutAndEmit [.inst ⟨o, some (.number n), .fixed size⟩] = .ok (o :: bs)) ∧
    (256 ^ size ≤ n.toNat → ∀ pre post,
      ∃ e, layoutAndEmit (pre ++ .inst ⟨o, some (.number n), .fixed size⟩ :: post) = .error e) := by
  constructor
  · intro hlt
    refine ⟨beBytes size n.toNat, beBytes_length _ _, beValue_beBytes _ _ hlt, ?_⟩
    simp [layoutAndEmit, hasLabel, emitAll, emitNoLabel, encodeImm_some, hlt]
  · intro hge pre post
    cases hr : layoutAndEmit (pre ++ .inst ⟨o, some (.number n), .fixed size⟩ :: post) with
    | error e => exact ⟨e, rfl⟩
    | ok code =>
      exfalso
      have hno : ¬ n.toNat < 256 ^ size := by omega
      unfold layoutAndEmit at hr
      split at hr
      · cases hl : layoutLoop (8 * (pre ++ Item.inst ⟨o, some (.number n), .fixed size⟩ :: post).length + 1)
            ((pre ++ Item.inst ⟨o, some (.number n), .fixed size⟩ :: post).map fun it => (it, 0)) with
        | error e => rw [hl] at hr; cases hr
        | ok p =>
          rw [hl] at hr
          obtain ⟨h1, _⟩ := layoutLoop_ok _ _ _ _ (WInv.init _) hl
          obtain ⟨chunks, c1, c2, c3⟩ := emitAll_ok _ _ _ hr
          have hmem : Item.inst ⟨o, some (.number n), .fixed size⟩ ∈ p.1.map (·.1) := by
            rw [h1, List.map_map]
            simp
          obtain ⟨x, hx, hx2⟩ := List.mem_map.1 hmem
          obtain ⟨i, hi, rfl⟩ := List.mem_iff_getElem.1 hx
          have := c3 i _ _ (List.getElem?_eq_getElem hi) (List.getElem?_eq_getElem (c1 ▸ hi))
          rw [show p.1[i] = (p.1[i].1, p.1[i].2) from rfl, hx2] at this
          obtain ⟨v, r1, r2, _⟩ := emitItem_ok this
          simp only [resolveImm] at r1
          cases r1
          exact hno r2
      · obtain ⟨chunks, c1, c2, c3⟩ := emitAll_ok _ _ _ hr
        have hmem : Item.inst ⟨o, some (.number n), .fixed size⟩ ∈
            (pre ++ Item.inst ⟨o, some (.number n), .fixed size⟩ :: post) := by simp
        obtain ⟨i, hi, hx⟩ := List.mem_iff_getElem.1 hmem
        have := c3 i _ _ (List.getElem?_eq_getElem hi) (List.getElem?_eq_getElem (c1 ▸ hi))
        rw [hx] at this
        simp only [emitNoLabel, encodeImm_some, if_neg hno] at this
        cases this

/-- `DUP 20; PUSH2 7; PUSH 0x10000; ADD` as tokens. -/
example :
    let t (s : String) : Token := ⟨s, .ident⟩
    let n (v : Nat) : Token := ⟨"", .number (BitVec.ofNat 256 v)⟩
    let names (s : String) : Option UInt8 :=
      if s = "PUSH2" then some 0x61 else if s = "ADD" then some 0x01 else none
    (match parseItems names [t "DUP", n 20, t "PUSH2", n 7, t "PUSH", n 0x10000, t "ADD"] with
      | .ok items => layoutAndEmit items
      | .error e => .error e) = .ok [0xe6, 0x83, 0x61, 0, 7, 0x62, 1, 0, 0, 0x01] := by
  decide +kernel

end Verif.Asm
