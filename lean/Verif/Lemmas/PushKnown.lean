import Verif.Lemmas.DseWalk
import Verif.Lemmas.InterpBlock
/-!
# Helper lemmas: abstract interpretation of a block that has its operands
-/

namespace Verif
open Spec

/-- The immediate of DUPN, SWAPN or EXCHANGE is valid. -/
def Decodable (code : Code) (p : Nat × InstData) : Prop :=
  (p.2.opcode = op.DUPN ∨ p.2.opcode = op.SWAPN → decodeSingle (UInt8.ofNat (code.imm p.1).toNat) ≠ none) ∧
  (p.2.opcode = op.EXCHANGE → decodePair (UInt8.ofNat (code.imm p.1).toNat) ≠ none)

theorem push_table : ∀ o : UInt8, (0x5f ≤ o.toNat ∧ o.toNat ≤ 0x7f) →
    tableStackIo o = (0, 1) ∧ o ≠ op.DUPN ∧ o ≠ op.SWAPN ∧ o ≠ op.EXCHANGE ∧ isSwapLike o = false := by
  decide +kernel

theorem swapAt_length {α : Type} (l : List α) (i j : Nat) : (swapAt l i j).length = l.length := by
  unfold swapAt
  split <;> simp

/-- An enabled instruction that has its operands is interpreted, with the height its effect gives. -/
theorem interpOp_len {code : Code} {limit i : Nat} {st : AIState} {d : InstData} {s : List AbsValue}
    (hio : d.stackIo = computeStackIo d.opcode (some [UInt8.ofNat (code.imm i).toNat]))
    (hdec : Decodable code (i, d)) (hs : d.stackIo.1 ≤ s.length) :
    ∃ s', (interpOp code limit st i d s).1 = some s' ∧ s'.length = s.length - d.stackIo.1 + d.stackIo.2 := by
  by_cases hp : 0x5f ≤ d.opcode.toNat ∧ d.opcode.toNat ≤ 0x7f
  · obtain ⟨t1, t2, t3, t4, _⟩ := push_table _ hp
    have hio' : d.stackIo = (0, 1) := by
      rw [hio]; unfold computeStackIo; rw [if_neg t2, if_neg t3, if_neg t4, t1]
    rw [interpOp_push hp.1 hp.2, hio']
    exact ⟨_, rfl, by simp⟩
  by_cases h50 : d.opcode.toNat = 0x50
  · have ho := toNat_eq (by omega) h50
    have hio' : d.stackIo = (1, 0) := by rw [hio, ho]; rfl
    rw [hio'] at hs ⊢
    rw [interpOp_pop h50]
    cases s with
    | nil => simp at hs
    | cons x s => exact ⟨s, rfl, by simp⟩
  by_cases hd : 0x80 ≤ d.opcode.toNat ∧ d.opcode.toNat ≤ 0x8f
  · obtain ⟨a1, a2, a3, a4⟩ := dup_table _ hd
    have hio' : d.stackIo = (d.opcode.toNat - 0x80 + 1, d.opcode.toNat - 0x80 + 2) := by
      rw [hio]; unfold computeStackIo; rw [if_neg a2, if_neg a3, if_neg a4, a1]
    rw [hio'] at hs ⊢
    simp only at hs ⊢
    rw [interpOp_dup hd.1 hd.2, List.getElem?_eq_getElem (by omega)]
    exact ⟨_, rfl, by simp only [List.length_cons]; omega⟩
  by_cases hw : 0x90 ≤ d.opcode.toNat ∧ d.opcode.toNat ≤ 0x9f
  · obtain ⟨a1, a2, a3, a4⟩ := swap_table _ hw
    have hio' : d.stackIo = (d.opcode.toNat - 0x90 + 2, d.opcode.toNat - 0x90 + 2) := by
      rw [hio]; unfold computeStackIo; rw [if_neg a2, if_neg a3, if_neg a4, a1]
    rw [hio'] at hs ⊢
    simp only at hs ⊢
    rw [interpOp_swap hw.1 hw.2, if_neg (by omega)]
    exact ⟨_, rfl, by rw [swapAt_length]; omega⟩
  by_cases h6 : d.opcode.toNat = 0xe6
  · have ho : d.opcode = op.DUPN := toNat_eq (k := 0xe6) (by omega) h6
    have hk := hdec.1 (.inl ho)
    unfold computeStackIo at hio
    rw [if_pos ho] at hio
    rw [interpOp_dupn h6]
    simp only at hk hio
    cases hx : decodeSingle (UInt8.ofNat (code.imm i).toNat) with
    | none => exact absurd hx hk
    | some k =>
      rw [hx] at hio
      simp only [Option.map_some, Option.getD_some] at hio
      rw [hio] at hs ⊢
      exact ⟨_, rfl, by simp only [List.length_cons]; simp only at hs; omega⟩
  by_cases h7 : d.opcode.toNat = 0xe7
  · have ho : d.opcode = op.SWAPN := toNat_eq (k := 0xe7) (by omega) h7
    have hk := hdec.1 (.inr ho)
    unfold computeStackIo at hio
    rw [if_neg (by rw [ho]; decide), if_pos ho] at hio
    rw [interpOp_swapn h7]
    simp only at hk hio
    cases hx : decodeSingle (UInt8.ofNat (code.imm i).toNat) with
    | none => exact absurd hx hk
    | some k =>
      rw [hx] at hio
      simp only [Option.map_some, Option.getD_some] at hio
      rw [hio] at hs ⊢
      simp only at hs ⊢
      rw [if_neg (by omega)]
      exact ⟨_, rfl, by rw [swapAt_length]; omega⟩
  by_cases h8 : d.opcode.toNat = 0xe8
  · have ho : d.opcode = op.EXCHANGE := toNat_eq (k := 0xe8) (by omega) h8
    have hk := hdec.2 ho
    unfold computeStackIo at hio
    rw [if_neg (by rw [ho]; decide), if_neg (by rw [ho]; decide), if_pos ho] at hio
    rw [interpOp_exchange h8]
    simp only at hk hio
    cases hx : decodePair (UInt8.ofNat (code.imm i).toNat) with
    | none => exact absurd hx hk
    | some k =>
      rw [hx] at hio
      simp only [Option.map_some, Option.getD_some] at hio
      rw [hio] at hs ⊢
      simp only at hs ⊢
      rw [if_neg (by omega)]
      exact ⟨_, rfl, by rw [swapAt_length]; omega⟩
  obtain ⟨t1, t2, t3, t4, _⟩ := generic_table d.opcode (by omega) h6 h7 h8 h50
  have hio' : d.stackIo = tableStackIo d.opcode := by
    rw [hio]; unfold computeStackIo; rw [if_neg t2, if_neg t3, if_neg t4]
  rw [interpOp_generic (by omega) (by simp only [List.mem_cons, List.not_mem_nil, or_false, not_or]; exact ⟨h6, h7, h8⟩) h50,
    if_neg (by omega)]
  dsimp only
  refine ⟨_, rfl, ?_⟩
  cases hf : (tryFold code limit st d d.stackIo.1 d.stackIo.2 s).1 with
  | none => simp only [List.length_append, List.length_replicate, List.length_drop]; omega
  | some w =>
    have h1 := (tryFold_some hf).1
    have h2 : d.stackIo.2 ≤ 1 := by rw [hio']; exact t1
    simp only [List.length_cons, List.length_drop]; omega

/-- Interpreting a live instruction: its recorded operands and output. -/
theorem interpInst_rec {code : Code} {limit i : Nat} {st : AIState} {d : InstData} {s : List AbsValue}
    (hl : d.flags.deadCode = false) :
    (interpInst code limit st i d s).2.inputs i = (if 0 < d.stackIo.1 then (s.take d.stackIo.1).reverse
      else st.inputs i) ∧
    (∀ s', (interpInst code limit st i d s).1 = some s' → 0 < d.stackIo.2 → isSwapLike d.opcode = false →
      (interpInst code limit st i d s).2.outputs i = s'.head?) := by
  unfold interpInst
  rw [hl]
  simp only [Bool.false_eq_true, if_false]
  have hsn := interpOp_snapshots code limit i (if 0 < d.stackIo.1 then
        { st with inputs := fun j => if j = i then (s.take d.stackIo.1).reverse else st.inputs j }
      else st) d s
  generalize hst : (if 0 < d.stackIo.1 then
        { st with inputs := fun j => if j = i then (s.take d.stackIo.1).reverse else st.inputs j }
      else st) = st1 at *
  have h1 : st1.inputs i = (if 0 < d.stackIo.1 then (s.take d.stackIo.1).reverse else st.inputs i) := by
    rw [← hst]; split <;> simp
  generalize interpOp code limit st1 i d s = r at *
  obtain ⟨r1, r2⟩ := r
  simp only at hsn ⊢
  cases r1 with
  | none => exact ⟨by rw [hsn.1, h1], by simp⟩
  | some s' =>
    simp only
    refine ⟨?_, fun s1 e ho hsw => ?_⟩
    · split
      · simp only [hsn.1, h1]
      · rw [hsn.1, h1]
    · have := Option.some.inj e
      subst this
      rw [if_pos ⟨ho, by simp [hsw]⟩]
      simp

/-- A block whose entry has the words it needs is interpreted to its end (its last instruction may be
anything), all operands are recorded, and all pushes are known. -/
theorem interpBlock_full {code : Code} {limit : Nat} : ∀ (l : List (Nat × InstData)) {st : AIState}
    {s : List AbsValue} {h : Nat}, (∀ p ∈ l, Wf code p) →
    (∀ p ∈ l, p.2.flags.deadCode = false) → (l.map Prod.fst).Nodup →
    (∀ p ∈ l.dropLast, (p.2.flags.disabled || p.2.flags.unknown) = false ∧ Decodable code p) →
    Heights l h → h ≤ s.length →
    (∀ p ∈ l, 0 < p.2.stackIo.1 → ((interpBlock code limit l st s).2.inputs p.1).length = p.2.stackIo.1) ∧
    (∀ p ∈ l, 0x5f ≤ p.2.opcode.toNat → p.2.opcode.toNat ≤ 0x7f →
      (p.2.flags.disabled || p.2.flags.unknown) = false →
      (interpBlock code limit l st s).2.outputs p.1 = some (.const (code.imm p.1)))
  | [], _, _, _, _, _, _, _, _, _ => ⟨by simp, by simp⟩
  | (i, d) :: l, st, s, h, wf, hlive, hnd, hen, hh, hs => by
    obtain ⟨h1, h2, h3, h4⟩ := hh
    simp only at h1 h2 h3 h4
    have hld : d.flags.deadCode = false := hlive (i, d) (by simp)
    have hrec := interpInst_rec (code := code) (limit := limit) (i := i) (st := st) (s := s) hld
    simp only [List.map_cons, List.nodup_cons, List.mem_map, not_exists, not_and] at hnd
    have hother : ∀ p ∈ l, p.1 ≠ i := fun p hp => hnd.1 p hp
    have hpush : 0x5f ≤ d.opcode.toNat → d.opcode.toNat ≤ 0x7f →
        (d.flags.disabled || d.flags.unknown) = false →
        (interpInst code limit st i d s).2.outputs i = some (.const (code.imm i)) := by
      intro p1 p2 hoff
      obtain ⟨t1, t2, t3, t4, t5⟩ := push_table _ ⟨p1, p2⟩
      have hio' : d.stackIo = (0, 1) := by
        have := (wf (i, d) (by simp)).io hoff
        simp only at this
        rw [this]; unfold computeStackIo; rw [if_neg t2, if_neg t3, if_neg t4, t1]
      obtain ⟨st0, _, _, e⟩ := interpInst_stack (code := code) (limit := limit) (i := i) (st := st) (a := s) hld
      rw [interpOp_push p1 p2] at e
      have := hrec.2 _ e (by rw [hio']; simp) t5
      rw [this]; rfl
    have hinp : 0 < d.stackIo.1 → ((interpInst code limit st i d s).2.inputs i).length = d.stackIo.1 := by
      intro h0
      rw [hrec.1, if_pos h0, List.length_reverse, List.length_take]; omega
    cases l with
    | nil =>
      simp only [List.mem_singleton, forall_eq]
      have e : (interpBlock code limit [(i, d)] st s).2 = (interpInst code limit st i d s).2 := by
        simp only [interpBlock]; split <;> rfl
      rw [e]
      exact ⟨hinp, hpush⟩
    | cons q l =>
      obtain ⟨hoff, hdec⟩ := hen (i, d) (by simp)
      obtain ⟨st0, _, _, e⟩ := interpInst_stack (code := code) (limit := limit) (i := i) (st := st) (a := s) hld
      obtain ⟨s', e1, e2⟩ := interpOp_len (limit := limit) (st := st0) (i := i) (d := d) (s := s) ((wf (i, d) (by simp)).io hoff) hdec
        (by omega)
      rw [e1] at e
      have eb : (interpBlock code limit ((i, d) :: q :: l) st s) =
          interpBlock code limit (q :: l) (interpInst code limit st i d s).2 s' := by
        rw [interpBlock]; simp only [e]
      obtain ⟨g1, g2⟩ := interpBlock_full (limit := limit) (q :: l) (st := (interpInst code limit st i d s).2) (s := s')
        (fun p hp => wf p (List.mem_cons_of_mem _ hp)) (fun p hp => hlive p (List.mem_cons_of_mem _ hp))
        hnd.2 (fun p hp => hen p (by rw [List.dropLast_cons₂]; exact List.mem_cons_of_mem _ hp)) h4 (by omega)
      have ho := interpBlock_other (code := code) (limit := limit) (j := i) (l := q :: l)
        (st := (interpInst code limit st i d s).2) (a := s') hother
      rw [eb]
      refine ⟨fun p hp => ?_, fun p hp => ?_⟩
      · rcases List.mem_cons.1 hp with rfl | hp
        · rw [ho.1]; exact hinp
        · exact g1 p hp
      · rcases List.mem_cons.1 hp with rfl | hp
        · rw [ho.2]; exact hpush
        · exact g2 p hp

/-- A known push stays known. -/
theorem interpInst_keep {code : Code} {limit i j : Nat} {st : AIState} {d : InstData} {s : List AbsValue}
    (hp : j = i → 0x5f ≤ d.opcode.toNat ∧ d.opcode.toNat ≤ 0x7f)
    (h : st.outputs i = some (.const (code.imm i))) :
    (interpInst code limit st j d s).2.outputs i = some (.const (code.imm i)) := by
  by_cases hj : j = i
  · subst hj
    obtain ⟨p1, p2⟩ := hp rfl
    unfold interpInst
    split
    · exact h
    · dsimp only
      rw [interpOp_push p1 p2]
      dsimp only
      split
      · simp
      · split <;> exact h
  · rw [(interpInst_other (fun e => hj e.symm)).2]; exact h

theorem interpBlock_keep {code : Code} {limit i : Nat} {l : List (Nat × InstData)} {st : AIState}
    {s : List AbsValue} (hp : ∀ p ∈ l, p.1 = i → 0x5f ≤ p.2.opcode.toNat ∧ p.2.opcode.toNat ≤ 0x7f)
    (h : st.outputs i = some (.const (code.imm i))) :
    (interpBlock code limit l st s).2.outputs i = some (.const (code.imm i)) := by
  induction l generalizing st s with
  | nil => exact h
  | cons p l ih =>
    obtain ⟨j, d⟩ := p
    have := interpInst_keep (limit := limit) (s := s) (hp (j, d) (by simp)) h
    simp only [interpBlock]
    split
    · exact this
    · exact ih (fun p hp' => hp p (List.mem_cons_of_mem _ hp')) this

/-- Instructions without operands record none. -/
theorem interpBlock_empty {code : Code} {limit : Nat} {l : List (Nat × InstData)} {st : AIState}
    {s : List AbsValue} (nd : (l.map Prod.fst).Nodup) {p : Nat × InstData} (hp : p ∈ l)
    (hz : p.2.stackIo.1 = 0) (h : st.inputs p.1 = []) :
    (interpBlock code limit l st s).2.inputs p.1 = [] := by
  induction l generalizing st s with
  | nil => simp at hp
  | cons q l ih =>
    obtain ⟨i, d⟩ := q
    simp only [List.map_cons, List.nodup_cons, List.mem_map, not_exists, not_and] at nd
    simp only [interpBlock]
    have hq : (interpInst code limit st i d s).2.inputs p.1 = [] := by
      rcases List.mem_cons.1 hp with rfl | hp
      · by_cases hl : d.flags.deadCode = false
        · rw [(interpInst_rec hl).1, if_neg (by simp only at hz; omega)]; exact h
        · unfold interpInst
          rw [if_pos (by simpa using hl)]; exact h
      · rw [(interpInst_other (nd.1 p hp)).1]; exact h
    split
    · exact hq
    · rcases List.mem_cons.1 hp with rfl | hp
      · rw [(interpBlock_other (fun q hq => nd.1 q hq)).1]; exact hq
      · exact ih nd.2 hp hq

end Verif
