import Verif.Lemmas.DedupTotal
import Verif.Spec.AbsInt
/-!
# What merged blocks have in common
-/

namespace Verif

/-! ## The fingerprint -/

/-- An immediate handle whose printed bytes can be told apart from what follows: inline zero (printed
as the one byte `0x80`) or a handle whose lowest byte is neither zero nor `0x80` (printed as four
bytes). -/
def Plain (d : InstData) : Prop :=
  0 < minImmLen d.opcode → d.data < 2 ^ 32 ∧ (d.data = 2 ^ 31 ∨ (d.data % 256 ≠ 0 ∧ d.data % 256 ≠ 128))

theorem ofNat_toNat8 (n : Nat) : (UInt8.ofNat n).toNat = n % 256 := by
  simp

theorem leBytes_inj {a b : Nat} (ha : a < 2 ^ 32) (hb : b < 2 ^ 32) (h : leBytes a = leBytes b) : a = b := by
  unfold leBytes at h
  simp only [List.cons.injEq, and_true] at h
  obtain ⟨h0, h1, h2, h3⟩ := h
  have g0 := congrArg UInt8.toNat h0
  have g1 := congrArg UInt8.toNat h1
  have g2 := congrArg UInt8.toNat h2
  have g3 := congrArg UInt8.toNat h3
  simp only [ofNat_toNat8] at g0 g1 g2 g3
  omega

theorem strip_zero : (leBytes (2 ^ 31)).dropWhile (· == 0) = [128] := by decide

theorem strip_low {n : Nat} (h : n % 256 ≠ 0) : (leBytes n).dropWhile (· == 0) = leBytes n := by
  have h0 : (UInt8.ofNat n == 0) = false := by
    rw [beq_eq_false_iff_ne]
    intro he
    have := congrArg UInt8.toNat he
    rw [ofNat_toNat8] at this
    exact h this
  unfold leBytes
  rw [List.dropWhile_cons, h0]
  rfl

theorem low_ne {n : Nat} (h : n % 256 ≠ 128) : UInt8.ofNat n ≠ 128 := by
  intro he
  have := congrArg UInt8.toNat he
  rw [ofNat_toNat8] at this
  exact h this

/-- The part of an instruction its behaviour depends on. -/
def shape (d : InstData) : UInt8 × Nat := (d.opcode, if 0 < minImmLen d.opcode then d.data else 0)

theorem instPrint_cancel {d d' : InstData} (hp : Plain d) (hp' : Plain d') {r r' : List UInt8}
    (h : instPrint d ++ r = instPrint d' ++ r') : shape d = shape d' ∧ r = r' := by
  unfold instPrint at h
  rw [List.cons_append, List.cons_append, List.cons.injEq] at h
  obtain ⟨ho, h⟩ := h
  unfold shape
  rw [ho] at h ⊢
  by_cases hi : 0 < minImmLen d'.opcode
  · rw [if_pos hi, if_pos hi] at h
    rw [if_pos hi, if_pos hi]
    obtain ⟨hl, hc⟩ := hp (ho ▸ hi)
    obtain ⟨hl', hc'⟩ := hp' hi
    rcases hc with hc | ⟨hc0, hc1⟩ <;> rcases hc' with hc' | ⟨hc0', hc1'⟩
    · rw [hc, hc', strip_zero] at h
      rw [hc, hc']
      exact ⟨rfl, by simpa using h⟩
    · rw [hc, strip_zero, strip_low hc0'] at h
      unfold leBytes at h
      simp only [List.cons_append, List.nil_append, List.cons.injEq] at h
      exact absurd h.1.symm (low_ne hc1')
    · rw [hc', strip_zero, strip_low hc0] at h
      unfold leBytes at h
      simp only [List.cons_append, List.nil_append, List.cons.injEq] at h
      exact absurd h.1 (low_ne hc1)
    · rw [strip_low hc0, strip_low hc0'] at h
      obtain ⟨h1, h2⟩ := List.append_inj h rfl
      rw [leBytes_inj hl hl' h1]
      exact ⟨rfl, h2⟩
  · rw [if_neg hi, if_neg hi] at h
    rw [if_neg hi, if_neg hi]
    exact ⟨rfl, by simpa using h⟩

theorem fingerprint_inj : ∀ (a b : List (Nat × InstData)), (∀ x ∈ a, Plain x.2) → (∀ x ∈ b, Plain x.2) →
    fingerprint a = fingerprint b → a.map (fun x => shape x.2) = b.map fun x => shape x.2
  | [], [], _, _, _ => rfl
  | [], y :: b, _, _, h => by
    simp [fingerprint, instPrint] at h
  | x :: a, [], _, _, h => by
    simp [fingerprint, instPrint] at h
  | x :: a, y :: b, ha, hb, h => by
    unfold fingerprint at h
    rw [List.flatMap_cons, List.flatMap_cons] at h
    obtain ⟨h1, h2⟩ := instPrint_cancel (ha x List.mem_cons_self) (hb y List.mem_cons_self) h
    rw [List.map_cons, List.map_cons, h1, fingerprint_inj a b (fun z hz => ha z (List.mem_cons_of_mem _ hz))
      (fun z hz => hb z (List.mem_cons_of_mem _ hz)) h2]

/-! ## What a round keeps -/

/-- `b` is `a`, or where a redirect in `E` sends it, repeatedly. -/
inductive Hops (E : List (Nat × Nat)) : Nat → Nat → Prop
  | refl (a : Nat) : Hops E a a
  | step {a b c : Nat} : Hops E a b → (b, c) ∈ E → Hops E a c

theorem Hops.trans {E : List (Nat × Nat)} {a b c : Nat} (h : Hops E a b) (h' : Hops E b c) : Hops E a c := by
  induction h' with
  | refl => exact h
  | step _ he ih => exact .step ih he

theorem Hops.mono {E E' : List (Nat × Nat)} (hE : ∀ e ∈ E, e ∈ E') {a b : Nat} (h : Hops E a b) :
    Hops E' a b := by
  induction h with
  | refl => exact .refl _
  | step _ he ih => exact .step ih (hE _ he)

/-- An instruction before and after a round that adds the redirects `E`. -/
structure KeptInst (E : List (Nat × Nat)) (d d' : InstData) : Prop where
  op : d'.opcode = d.opcode
  io : d'.stackIo = d.stackIo
  flags : { d'.flags with deadCode := false } = { d.flags with deadCode := false }
  dead : d.flags.deadCode = true → d'.flags.deadCode = true
  data : Hops E d.data d'.data
  same : d.isStaticJump = false ∨ d.flags.invalidJump = true ∨ d.flags.multiJump = true → d'.data = d.data

theorem KeptInst.refl (E : List (Nat × Nat)) (d : InstData) : KeptInst E d d :=
  ⟨rfl, rfl, rfl, id, .refl _, fun _ => rfl⟩

theorem KeptInst.flag {E : List (Nat × Nat)} {d d' : InstData} (h : KeptInst E d d') :
    d'.flags.staticJump = d.flags.staticJump ∧ d'.flags.invalidJump = d.flags.invalidJump ∧
    d'.flags.multiJump = d.flags.multiJump ∧ d'.flags.constJumpCond = d.flags.constJumpCond ∧
    d'.flags.disabled = d.flags.disabled ∧ d'.flags.unknown = d.flags.unknown := by
  have := h.flags
  simp only [InstFlags.mk.injEq] at this
  exact ⟨this.1, this.2.1, this.2.2.1, this.2.2.2.1, this.2.2.2.2.1, this.2.2.2.2.2.1⟩

theorem KeptInst.trans {E : List (Nat × Nat)} {a b c : InstData} (h : KeptInst E a b) (h' : KeptInst E b c) :
    KeptInst E a c := by
  refine ⟨h'.op.trans h.op, h'.io.trans h.io, h'.flags.trans h.flags, fun x => h'.dead (h.dead x),
    h.data.trans h'.data, fun x => ?_⟩
  obtain ⟨f1, f2, f3, _⟩ := h.flag
  rw [h'.same ?_, h.same x]
  unfold InstData.isStaticJump InstData.isJump
  rw [f1, f2, f3, h.op]
  exact x

theorem KeptInst.mono {E E' : List (Nat × Nat)} (hE : ∀ e ∈ E, e ∈ E') {a b : InstData} (h : KeptInst E a b) :
    KeptInst E' a b := ⟨h.op, h.io, h.flags, h.dead, h.data.mono hE, h.same⟩

/-- Instruction lists before and after. -/
structure KeptInsts (E : List (Nat × Nat)) (l l' : List InstData) : Prop where
  len : l'.length = l.length
  inst : ∀ (i : Nat) d d', l[i]? = some d → l'[i]? = some d' → KeptInst E d d'

theorem KeptInsts.refl (E : List (Nat × Nat)) (l : List InstData) : KeptInsts E l l :=
  ⟨rfl, fun i d d' h h' => by rw [h] at h'; cases h'; exact .refl _ _⟩

theorem KeptInsts.get {E : List (Nat × Nat)} {l l' : List InstData} (h : KeptInsts E l l') {i : Nat} {d : InstData}
    (hd : l[i]? = some d) : ∃ d', l'[i]? = some d' ∧ KeptInst E d d' := by
  have hl : i < l'.length := by rw [h.len]; exact (List.getElem?_eq_some_iff.1 hd).1
  exact ⟨_, List.getElem?_eq_getElem hl, h.inst i d _ hd (List.getElem?_eq_getElem hl)⟩

theorem KeptInsts.trans {E : List (Nat × Nat)} {a b c : List InstData} (h : KeptInsts E a b)
    (h' : KeptInsts E b c) : KeptInsts E a c := by
  refine ⟨h'.len.trans h.len, fun i d d' h1 h2 => ?_⟩
  obtain ⟨d1, g1, g2⟩ := h.get h1
  exact g2.trans (h'.inst i d1 d' g1 h2)

theorem KeptInsts.mono {E E' : List (Nat × Nat)} (hE : ∀ e ∈ E, e ∈ E') {a b : List InstData}
    (h : KeptInsts E a b) : KeptInsts E' a b := ⟨h.len, fun i d d' h1 h2 => (h.inst i d d' h1 h2).mono hE⟩

theorem killed_kept (E : List (Nat × Nat)) (s : DState) (canon dup : Nat × Nat) :
    KeptInsts E s.prog.insts (killed s canon dup).insts := by
  have h1 : KeptInsts E s.prog.insts (s.prog.insts.mapIdx fun i d =>
      if dup.1 ≤ i ∧ i < dup.2 then { d with flags := { d.flags with deadCode := true } } else d) := by
    refine ⟨by simp, fun i d d' ha hb => ?_⟩
    rw [List.getElem?_mapIdx, ha, Option.map_some] at hb
    cases hb
    split
    · exact ⟨rfl, rfl, rfl, fun _ => rfl, .refl _, fun _ => rfl⟩
    · exact .refl _ _
  unfold killed
  dsimp only
  split
  · refine h1.trans ⟨by simp [Prog.modify], fun i d d' ha hb => ?_⟩
    unfold Prog.modify at hb
    dsimp only at hb
    rw [List.getElem?_modify, ha, Option.map_eq_map, Option.map_some] at hb
    cases hb
    split
    · exact ⟨rfl, rfl, rfl, id, .refl _, fun _ => rfl⟩
    · exact .refl _ _
  · exact h1

theorem retarget_kept (E : List (Nat × Nat)) {dup canon : Nat} (hE : (dup, canon) ∈ E) (p : Prog)
    (x : Nat × Nat) : KeptInsts E p.insts (retarget dup canon p x).insts := by
  refine ⟨by simp [retarget, Prog.modify], fun i d d' ha hb => ?_⟩
  unfold retarget Prog.modify at hb
  dsimp only at hb
  rw [List.getElem?_modify, ha, Option.map_eq_map, Option.map_some] at hb
  cases hb
  split
  · split
    · rename_i hc
      simp only [Bool.and_eq_true, Bool.not_eq_true', beq_iff_eq] at hc
      obtain ⟨⟨⟨c1, c2⟩, c3⟩, c4⟩ := hc
      refine ⟨rfl, rfl, rfl, id, ?_, fun h => ?_⟩
      · unfold InstData.staticJumpTarget at c4
        exact .step (.refl _) (by rw [c4]; exact hE)
      · rw [c1, c2, c3] at h
        simp at h
    · exact .refl _ _
  · exact .refl _ _

theorem retargets_kept (E : List (Nat × Nat)) {dup canon : Nat} (hE : (dup, canon) ∈ E) (l : List (Nat × Nat)) :
    ∀ p : Prog, KeptInsts E p.insts (l.foldl (retarget dup canon) p).insts := by
  induction l with
  | nil => intro p; exact .refl _ _
  | cons x l ih => intro p; exact (retarget_kept E hE p x).trans (ih _)

theorem mem_addSucc_of {l : List Nat} {a b : Nat} (h : a ∈ l ∨ a = b) : a ∈ addSucc l b := by
  unfold addSucc
  split
  · rename_i hc
    rcases h with h | rfl
    · exact h
    · simpa using hc
  · rcases h with h | rfl
    · exact List.mem_append_left _ h
    · simp

theorem mem_foldl_addSucc (ts : List Nat) : ∀ (cs : List Nat) (a : Nat), a ∈ cs ∨ a ∈ ts →
    a ∈ ts.foldl addSucc cs := by
  induction ts with
  | nil => intro cs a h; simpa using h
  | cons t ts ih =>
    intro cs a h
    refine ih (addSucc cs t) a ?_
    rcases h with h | h
    · exact .inl (mem_addSucc_of (.inl h))
    · rcases List.mem_cons.1 h with rfl | h
      · exact .inl (mem_addSucc_of (.inr rfl))
      · exact .inr h

/-- The targets recorded for `i` are still recorded for `j` afterwards. -/
def KeepsTargets (m m' : List (Nat × List Nat)) (i j : Nat) : Prop :=
  ∀ ts, m.lookup i = some ts → ∃ ts', m'.lookup j = some ts' ∧ ∀ t ∈ ts, t ∈ ts'

theorem KeepsTargets.refl (m : List (Nat × List Nat)) (i : Nat) : KeepsTargets m m i i :=
  fun ts h => ⟨ts, h, fun _ ht => ht⟩

theorem KeepsTargets.trans {a b c : List (Nat × List Nat)} {i j k : Nat} (h : KeepsTargets a b i j)
    (h' : KeepsTargets b c j k) : KeepsTargets a c i k := by
  intro ts hts
  obtain ⟨t1, h1, h2⟩ := h ts hts
  obtain ⟨t2, h3, h4⟩ := h' t1 h1
  exact ⟨t2, h3, fun t ht => h4 t (h2 t ht)⟩

theorem mergeTargets_keeps {p p' : Prog} {ct dt : Nat} (hne : ct ≠ dt) (h : mergeTargets p ct dt = some p') :
    p'.insts = p.insts ∧ (∀ i, i ≠ dt → KeepsTargets p.multi p'.multi i i) ∧
      ((p.insts[dt]?).any (·.flags.multiJump) = true → KeepsTargets p.multi p'.multi dt ct) := by
  unfold mergeTargets at h
  by_cases hm : (p.insts[dt]?).any (·.flags.multiJump) = true
  · rw [if_pos hm] at h
    cases hl : p.multi.lookup dt with
    | none =>
      rw [hl] at h; cases h
      exact ⟨rfl, fun i _ => .refl _ _, fun _ ts hts => by rw [hl] at hts; simp at hts⟩
    | some ts =>
      rw [hl] at h
      dsimp only at h
      rw [lookup_multiRemove, if_neg hne] at h
      cases hc : p.multi.lookup ct with
      | none => rw [hc] at h; simp at h
      | some cs =>
        rw [hc] at h
        cases h
        refine ⟨rfl, fun i hi us hus => ?_, fun _ us hus => ?_⟩
        · show ∃ ts', List.lookup i (multiInsert (multiRemove p.multi dt) ct _) = some ts' ∧ _
          rw [lookup_multiInsert]
          by_cases hic : i = ct
          · rw [if_pos hic]
            subst hic
            rw [hc] at hus; cases hus
            exact ⟨_, rfl, fun t ht => mem_foldl_addSucc _ _ _ (.inl ht)⟩
          · rw [if_neg hic, lookup_multiRemove, if_neg hi]
            exact ⟨us, hus, fun _ ht => ht⟩
        · rw [hl] at hus; cases hus
          show ∃ ts', List.lookup ct (multiInsert (multiRemove p.multi dt) ct _) = some ts' ∧ _
          rw [lookup_multiInsert, if_pos rfl]
          exact ⟨_, rfl, fun t ht => mem_foldl_addSucc _ _ _ (.inr ht)⟩
  · rw [if_neg hm] at h
    cases h
    exact ⟨rfl, fun i _ => .refl _ _, fun h => absurd h hm⟩

theorem merge_keeps (E : List (Nat × Nat)) {s s' : DState} {preds : List (Nat × Nat)} {canon dup : Nat × Nat}
    (hE : (dup.1, canon.1) ∈ E) (hne : canon.2 - 1 ≠ dup.2 - 1) (h : s.merge preds canon dup = some s') :
    KeptInsts E s.prog.insts s'.prog.insts ∧
      (∀ i, i ≠ dup.2 - 1 → KeepsTargets s.prog.multi s'.prog.multi i i) ∧
      ((s.prog.insts[dup.2 - 1]?).any (·.flags.multiJump) = true →
        KeepsTargets s.prog.multi s'.prog.multi (dup.2 - 1) (canon.2 - 1)) := by
  rw [merge_eq] at h
  obtain ⟨p, h1, rfl⟩ := Option.map_eq_some_iff.1 h
  obtain ⟨k1, k2, _⟩ := killed_mono s canon dup
  obtain ⟨a, b, c⟩ := mergeTargets_keeps hne h1
  obtain ⟨_, r2⟩ := retargets_mono dup.1 canon.1 preds p
  refine ⟨(killed_kept E s canon dup).trans (a ▸ retargets_kept E hE preds p), ?_, ?_⟩
  · intro i hi
    show KeepsTargets _ (preds.foldl (retarget dup.1 canon.1) p).multi i i
    rw [r2, ← k2]; exact b i hi
  · intro hm
    show KeepsTargets _ (preds.foldl (retarget dup.1 canon.1) p).multi _ _
    rw [r2, ← k2]
    exact c (by rw [k1.any_multi]; exact hm)

/-- What merging the duplicates `l` of block `c` keeps. -/
theorem mergeAll_keeps {p0 : Prog} {succ : Nat × Nat → List Nat} {c : Nat} {canon : Nat × Nat}
    (hc : p0.blocks[c]? = some canon) (E : List (Nat × Nat)) (l : List Nat) : ∀ {s s' : DState},
    DState.mergeAll p0.blocks succ canon l s = some s' → c ∉ l → l.Nodup →
    (∀ b ∈ l, ∀ x, p0.blocks[b]? = some x → (x.1, canon.1) ∈ E) →
    KeptInsts E s.prog.insts s'.prog.insts ∧
      (∀ i, (∀ b ∈ l, ∀ x, p0.blocks[b]? = some x → i ≠ x.2 - 1) →
        KeepsTargets s.prog.multi s'.prog.multi i i) ∧
      (∀ b ∈ l, ∀ x, p0.blocks[b]? = some x → (s.prog.insts[x.2 - 1]?).any (·.flags.multiJump) = true →
        KeepsTargets s.prog.multi s'.prog.multi (x.2 - 1) (canon.2 - 1)) := by
  induction l with
  | nil =>
    intro s s' h _ _ _
    rw [DState.mergeAll] at h; cases h
    exact ⟨.refl _ _, fun i _ => .refl _ _, fun b hb => by simp at hb⟩
  | cons b l ih =>
    intro s s' h hcl hnd hE
    rw [DState.mergeAll] at h
    cases hb : p0.blocks[b]? with
    | none => rw [hb] at h; simp at h
    | some dup =>
      rw [hb] at h
      dsimp only at h
      obtain ⟨s1, h1, h2⟩ := Option.bind_eq_some_iff.1 h
      rw [List.nodup_cons] at hnd
      have hbc : c ≠ b := fun h => hcl (h ▸ List.mem_cons_self)
      obtain ⟨a1, a2, a3⟩ := merge_keeps E (hE b List.mem_cons_self dup hb) (p0.block_term_ne hc hb hbc) h1
      obtain ⟨b1, b2, b3⟩ := ih h2 (fun h => hcl (List.mem_cons_of_mem _ h)) hnd.2
        (fun q hq => hE q (List.mem_cons_of_mem _ hq))
      have hcan : KeepsTargets s1.prog.multi s'.prog.multi (canon.2 - 1) (canon.2 - 1) :=
        b2 _ (fun q hq x hx => p0.block_term_ne hc hx (fun h => hcl (h ▸ List.mem_cons_of_mem _ hq)))
      refine ⟨a1.trans b1, fun i hi => ?_, fun q hq x hx hm => ?_⟩
      · exact (a2 i (hi b List.mem_cons_self dup hb)).trans
          (b2 i (fun q hq => hi q (List.mem_cons_of_mem _ hq)))
      · rcases List.mem_cons.1 hq with rfl | hq
        · rw [hb] at hx; cases hx
          exact (a3 hm).trans hcan
        · have hqb : q ≠ b := fun h => hnd.1 (h ▸ hq)
          refine (a2 _ (p0.block_term_ne hx hb hqb)).trans (b3 q hq x hx ?_)
          have : (s1.prog.insts[x.2 - 1]?).any (·.flags.multiJump) =
              (s.prog.insts[x.2 - 1]?).any (·.flags.multiJump) := by
            cases hg : s.prog.insts[x.2 - 1]? with
            | none =>
              rw [List.getElem?_eq_none_iff] at hg
              rw [List.getElem?_eq_none_iff.2 (by rw [a1.len]; exact hg)]
            | some d =>
              obtain ⟨d', g1, g2⟩ := a1.get hg
              rw [g1, Option.any_some, Option.any_some, g2.flag.2.2.1]
          rw [this]; exact hm

/-- What a whole round keeps. -/
theorem mergeGroups_keeps {loc : AIState} {p0 : Prog} {succ : Nat × Nat → List Nat} (E : List (Nat × Nat))
    (gs : List (List Nat)) : ∀ {s s' : DState},
    DState.mergeGroups loc p0.blocks succ gs s = some s' →
    (∀ g ∈ gs, g.Pairwise (· < ·)) → gs.Pairwise (fun g g' => ∀ b ∈ g, b ∉ g') →
    (∀ e ∈ gs.flatMap (groupEdges p0.blocks), e ∈ E) →
    KeptInsts E s.prog.insts s'.prog.insts ∧
      (∀ i, (∀ b ∈ gs.flatMap groupDups, ∀ x, p0.blocks[b]? = some x → i ≠ x.2 - 1) →
        KeepsTargets s.prog.multi s'.prog.multi i i) ∧
      (∀ g ∈ gs, ∀ b ∈ g.tail, ∀ x y, p0.blocks[b]? = some x → (g.head?.bind (p0.blocks[·]?)) = some y →
        (s.prog.insts[x.2 - 1]?).any (·.flags.multiJump) = true →
        KeepsTargets s.prog.multi s'.prog.multi (x.2 - 1) (y.2 - 1)) := by
  induction gs with
  | nil =>
    intro s s' h _ _ _
    rw [DState.mergeGroups] at h; cases h
    exact ⟨.refl _ _, fun i _ => .refl _ _, fun g hg => by simp at hg⟩
  | cons g gs ih =>
    intro s s' h hinc hdis hE
    rw [DState.mergeGroups] at h
    obtain ⟨s1, h1, h2⟩ := Option.bind_eq_some_iff.1 h
    rw [List.pairwise_cons] at hdis
    have hone : KeptInsts E s.prog.insts s1.prog.insts ∧
        (∀ i, (∀ b ∈ groupDups g, ∀ x, p0.blocks[b]? = some x → i ≠ x.2 - 1) →
          KeepsTargets s.prog.multi s1.prog.multi i i) ∧
        (∀ b ∈ g.tail, ∀ x y, p0.blocks[b]? = some x → (g.head?.bind (p0.blocks[·]?)) = some y →
          (s.prog.insts[x.2 - 1]?).any (·.flags.multiJump) = true →
          KeepsTargets s.prog.multi s1.prog.multi (x.2 - 1) (y.2 - 1)) := by
      have hE' : ∀ e ∈ groupEdges p0.blocks g, e ∈ E := fun e he =>
        hE e (List.mem_flatMap.2 ⟨g, List.mem_cons_self, he⟩)
      have hi := hinc g List.mem_cons_self
      clear hE hinc hdis h2 h ih
      unfold DState.mergeGroup at h1
      match g, h1, hE', hi with
      | [], h1, _, _ =>
        cases h1
        exact ⟨.refl _ _, fun i _ => .refl _ _, fun b hb => by simp at hb⟩
      | [_], h1, _, _ =>
        cases h1
        exact ⟨.refl _ _, fun i _ => .refl _ _, fun b hb => by simp at hb⟩
      | c :: d :: rest, h1, hE', hi =>
        dsimp only at h1
        cases hc : p0.blocks[c]? with
        | none => rw [hc] at h1; simp at h1
        | some canon =>
          rw [hc] at h1
          rw [List.pairwise_cons] at hi
          obtain ⟨a1, a2, a3⟩ := mergeAll_keeps hc E (d :: rest) h1
            (fun hm => by have := hi.1 c hm; omega)
            (hi.2.imp (fun h => by omega))
            (fun b hb x hx => hE' _ (List.mem_filterMap.2 ⟨b, hb, by rw [hx, hc]⟩))
          refine ⟨a1, a2, fun b hb x y hx hy hm => ?_⟩
          rw [List.head?_cons, Option.bind_some, hc] at hy
          cases hy
          exact a3 b hb x hx hm
    obtain ⟨a1, a2, a3⟩ := hone
    obtain ⟨b1, b2, b3⟩ := ih h2 (fun g' hg' => hinc g' (List.mem_cons_of_mem _ hg')) hdis.2
      (fun e he => hE e (by rw [List.flatMap_cons]; exact List.mem_append_right _ he))
    refine ⟨a1.trans b1, fun i hi => ?_, fun g' hg' b hb x y hx hy hm => ?_⟩
    · rw [List.flatMap_cons] at hi
      exact (a2 i (fun b hb => hi b (List.mem_append_left _ hb))).trans
        (b2 i (fun b hb => hi b (List.mem_append_right _ hb)))
    · rcases List.mem_cons.1 hg' with rfl | hg'
      · refine (a3 b hb x y hx hy hm).trans (b2 _ (fun q hq z hz => ?_))
        obtain ⟨c, hc1, hc2⟩ := Option.bind_eq_some_iff.1 hy
        obtain ⟨g2, hg2, hq⟩ := List.mem_flatMap.1 hq
        refine p0.block_term_ne hc2 hz (fun h => ?_)
        subst h
        exact hdis.1 g2 hg2 c (List.mem_of_mem_head? hc1) (List.mem_of_mem_tail hq)
      · refine (a2 _ (fun q hq z hz => ?_)).trans (b3 g' hg' b hb x y hx hy ?_)
        · refine p0.block_term_ne hx hz (fun h => ?_)
          subst h
          exact hdis.1 g' hg' b (List.mem_of_mem_tail hq) (List.mem_of_mem_tail hb)
        · have : (s1.prog.insts[x.2 - 1]?).any (·.flags.multiJump) =
              (s.prog.insts[x.2 - 1]?).any (·.flags.multiJump) := by
            cases hg : s.prog.insts[x.2 - 1]? with
            | none =>
              rw [List.getElem?_eq_none_iff] at hg
              rw [List.getElem?_eq_none_iff.2 (by rw [a1.len]; exact hg)]
            | some d =>
              obtain ⟨d', g1, g2⟩ := a1.get hg
              rw [g1, Option.any_some, Option.any_some, g2.flag.2.2.1]
          rw [this]; exact hm

end Verif
