import Verif.Lemmas.Dedup
import Verif.Lemmas.Parse
import Verif.Spec.Dedup
/-!
# Merged blocks execute the same instructions
-/

namespace Verif
open Spec

/-- What the instruction records of a program say about the code: the immediate is a function of the
handle (PUSH0 pushes zero), and the stack effect is a function of the opcode except for the opcodes with
a variable effect. Holds for every parsed program (`decoded_parse`). -/
def Decoded (code : Code) (insts : List InstData) : Prop :=
  ∃ (io : UInt8 → Nat × Nat) (val : Nat → Word), ∀ (i : Nat) d, insts[i]? = some d →
    (¬ (0xe6 ≤ d.opcode.toNat ∧ d.opcode.toNat ≤ 0xe8) → d.stackIo = io d.opcode) ∧
    (carriesImm d.opcode → code.imm i = val d.data) ∧ (d.opcode.toNat = 0x5f → code.imm i = 0)

theorem carriesImm_iff (o : UInt8) : carriesImm o ↔ 0 < minImmLen o := by
  rw [minImmLen_table]
  unfold carriesImm
  constructor
  · rintro (h | h)
    · rw [if_pos h]; omega
    · rw [if_neg (by omega), if_pos h]; omega
  · intro h
    by_cases h1 : 0x60 ≤ o.toNat ∧ o.toNat ≤ 0x7f
    · exact .inl h1
    · rw [if_neg h1] at h
      by_cases h2 : 0xe6 ≤ o.toNat ∧ o.toNat ≤ 0xe8
      · exact .inr h2
      · rw [if_neg h2] at h; omega

theorem evalOp_pc {codeLen pc pc' o : Nat} (h : o ≠ 0x58) (args : List Word) :
    evalOp codeLen pc o args = evalOp codeLen pc' o args := by
  unfold evalOp
  split
  · rw [if_neg h, if_neg h]
  all_goals rfl

theorem stackStep_congr {codeLen pc pc' o : Nat} {imm imm' : Word} {inp inp' out out' : Nat} (ho : o ≠ 0x58)
    (hi : (0x5f ≤ o ∧ o ≤ 0x7f) ∨ (0xe6 ≤ o ∧ o ≤ 0xe8) → imm = imm')
    (hio : ¬ (0xe6 ≤ o ∧ o ≤ 0xe8) → inp = inp' ∧ out = out') {c c' : List Word}
    (h : StackStep codeLen pc o imm inp out c c') : StackStep codeLen pc' o imm' inp' out' c c' := by
  cases h with
  | push c h1 h2 => rw [hi (.inl ⟨h1, h2⟩)]; exact .push c h1 h2
  | dup c w h1 h2 h3 => exact .dup c w h1 h2 h3
  | swap a b m r h1 h2 h3 => exact .swap a b m r h1 h2 h3
  | dupn c w n h1 h2 h3 => rw [hi (.inr (by omega))] at h2; exact .dupn c w n h1 h2 h3
  | swapn a b m r h1 h2 => rw [hi (.inr (by omega))] at h2; exact .swapn a b m r h1 h2
  | exchange a b p m r h1 h2 => rw [hi (.inr (by omega))] at h2; exact .exchange a b p m r h1 h2
  | pure args r w h1 => exact .pure args r w (by rw [evalOp_pc ho (pc := pc') (pc' := pc)]; exact h1)
  | other args res r h1 h2 h3 h4 h5 =>
    simp only [List.mem_cons, List.not_mem_nil, or_false, not_or] at h2
    obtain ⟨g1, g2⟩ := hio (by omega)
    exact .other args res r h1 (by simpa using h2) (g1 ▸ h3) (g2 ▸ h4)
      (by rw [evalOp_pc ho (pc := pc') (pc' := pc)]; exact h5)

theorem exec_nil_iff (code : Code) (c c' : List Word) : Exec code [] c c' ↔ c = c' := by
  constructor
  · intro h; cases h; rfl
  · rintro rfl; exact .nil _

theorem exec_cons_iff (code : Code) (x : Nat × InstData) (rest : List (Nat × InstData)) (c c'' : List Word) :
    Exec code (x :: rest) c c'' ↔ ∃ c', StackStep code.codeLen x.2.data x.2.opcode.toNat (code.imm x.1)
      x.2.stackIo.1 x.2.stackIo.2 c c' ∧ Exec code rest c' c'' := by
  obtain ⟨i, d⟩ := x
  constructor
  · intro h
    cases h with
    | cons _ _ _ _ c' _ h1 h2 => exact ⟨c', h1, h2⟩
  · rintro ⟨c', h1, h2⟩
    exact .cons i d rest c c' c'' h1 h2

/-- Two instructions with the same effect on every stack. -/
def SameEffect (code : Code) (x y : Nat × InstData) : Prop :=
  x.2.opcode = y.2.opcode ∧ (x.2.opcode.toNat = 0x58 → False) ∧
  ((0x5f ≤ x.2.opcode.toNat ∧ x.2.opcode.toNat ≤ 0x7f) ∨
    (0xe6 ≤ x.2.opcode.toNat ∧ x.2.opcode.toNat ≤ 0xe8) → code.imm x.1 = code.imm y.1) ∧
  (¬ (0xe6 ≤ x.2.opcode.toNat ∧ x.2.opcode.toNat ≤ 0xe8) → x.2.stackIo = y.2.stackIo)

theorem SameEffect.symm {code : Code} {x y : Nat × InstData} (h : SameEffect code x y) :
    SameEffect code y x := by
  obtain ⟨h1, h2, h3, h4⟩ := h
  rw [h1] at h2 h3 h4
  exact ⟨h1.symm, h2, fun h => (h3 h).symm, fun h => (h4 h).symm⟩

theorem SameEffect.step {code : Code} {x y : Nat × InstData} (h : SameEffect code x y) {c c' : List Word}
    (hs : StackStep code.codeLen x.2.data x.2.opcode.toNat (code.imm x.1) x.2.stackIo.1 x.2.stackIo.2 c c') :
    StackStep code.codeLen y.2.data y.2.opcode.toNat (code.imm y.1) y.2.stackIo.1 y.2.stackIo.2 c c' := by
  obtain ⟨h1, h2, h3, h4⟩ := h
  rw [← h1]
  exact stackStep_congr (fun h => h2 h) h3 (fun h => by rw [h4 h]; exact ⟨rfl, rfl⟩) hs

/-- Corresponding elements of two lists are related. -/
inductive Matched {α : Type} (R : α → α → Prop) : List α → List α → Prop
  | nil : Matched R [] []
  | cons {a b : α} {as bs : List α} : R a b → Matched R as bs → Matched R (a :: as) (b :: bs)

theorem Matched.symm {α : Type} {R : α → α → Prop} (hs : ∀ a b, R a b → R b a) {a b : List α}
    (h : Matched R a b) : Matched R b a := by
  induction h with
  | nil => exact .nil
  | cons h _ ih => exact .cons (hs _ _ h) ih

theorem matched_exec {code : Code} {a b : List (Nat × InstData)} (h : Matched (SameEffect code) a b) :
    ∀ c c', Exec code a c c' → Exec code b c c' := by
  induction h with
  | nil => intro c c' h; exact h
  | cons h _ ih =>
    intro c c' hx
    rw [exec_cons_iff] at hx ⊢
    obtain ⟨c1, h1, h2⟩ := hx
    exact ⟨c1, h.step h1, ih _ _ h2⟩

theorem matched_of_map {α β : Type} (f : α → β) {R : α → α → Prop} : ∀ (a b : List α),
    a.map f = b.map f → (∀ x ∈ a, ∀ y ∈ b, f x = f y → R x y) → Matched R a b
  | [], [], _, _ => .nil
  | [], _ :: _, h, _ => by simp at h
  | _ :: _, [], h, _ => by simp at h
  | x :: a, y :: b, h, hR => by
    rw [List.map_cons, List.map_cons, List.cons.injEq] at h
    exact .cons (hR x List.mem_cons_self y List.mem_cons_self h.1)
      (matched_of_map f a b h.2 fun x' hx y' hy => hR x' (List.mem_cons_of_mem _ hx) y' (List.mem_cons_of_mem _ hy))

theorem mem_slice {p : Prog} {s n : Nat} {x : Nat × InstData} (h : x ∈ p.slice s n) :
    p.insts[x.1]? = some x.2 ∧ s ≤ x.1 ∧ x.1 < s + n := by
  unfold Prog.slice at h
  obtain ⟨i, hi, h2⟩ := List.mem_filterMap.1 h
  obtain ⟨d, h3, rfl⟩ := Option.map_eq_some_iff.1 h2
  rw [List.mem_range'_1] at hi
  exact ⟨h3, hi⟩

/-- Blocks with the same printed instructions have the same code. -/
theorem sameCode_of_shape {code : Code} {insts : List InstData} (hdec : Decoded code insts)
    {a b : List (Nat × InstData)} (ha : ∀ x ∈ a, insts[x.1]? = some x.2) (hb : ∀ x ∈ b, insts[x.1]? = some x.2)
    (h : a.map (fun x => shape x.2) = b.map fun x => shape x.2) : SameCode code a b := by
  obtain ⟨io, val, hv⟩ := hdec
  unfold SameCode
  have hm := matched_of_map (R := fun x y => (x.2.opcode, if carriesImm x.2.opcode then some (code.imm x.1) else none)
      = (y.2.opcode, if carriesImm y.2.opcode then some (code.imm y.1) else none)) _ a b h (fun x hx y hy hs => by
    unfold shape at hs
    rw [Prod.mk.injEq] at hs ⊢
    obtain ⟨h1, h2⟩ := hs
    refine ⟨h1, ?_⟩
    rw [← h1]
    by_cases hc : carriesImm x.2.opcode
    · rw [if_pos hc, if_pos hc]
      rw [← h1, if_pos ((carriesImm_iff _).1 hc), if_pos ((carriesImm_iff _).1 hc)] at h2
      rw [(hv _ _ (ha x hx)).2.1 hc, (hv _ _ (hb y hy)).2.1 (h1 ▸ hc), h2]
    · rw [if_neg hc, if_neg hc])
  clear h ha hb
  induction hm with
  | nil => rfl
  | cons h _ ih => rw [List.map_cons, List.map_cons, h, ih]

theorem sameEffect_of_shape {code : Code} {insts : List InstData} (hdec : Decoded code insts)
    {x y : Nat × InstData} (hx : insts[x.1]? = some x.2) (hy : insts[y.1]? = some y.2)
    (h : shape x.2 = shape y.2) (hpc : x.2.opcode ≠ op.PC) : SameEffect code x y := by
  obtain ⟨io, val, hv⟩ := hdec
  unfold shape at h
  rw [Prod.mk.injEq] at h
  obtain ⟨h1, h2⟩ := h
  have hx' := hv _ _ hx
  have hy' := hv _ _ hy
  rw [← h1] at h2 hy'
  refine ⟨h1, fun h => hpc (UInt8.toNat_inj.1 h), fun hc => ?_, fun hc => ?_⟩
  · by_cases h0 : x.2.opcode.toNat = 0x5f
    · rw [hx'.2.2 h0, hy'.2.2 h0]
    · have hca : carriesImm x.2.opcode := by
        unfold carriesImm; omega
      rw [if_pos ((carriesImm_iff _).1 hca), if_pos ((carriesImm_iff _).1 hca)] at h2
      rw [hx'.2.1 hca, hy'.2.1 hca, h2]
  · rw [hx'.1 hc, hy'.1 hc]

/-- Immediates never belong to jumps. -/
theorem not_jump_of_imm {d : InstData} (h : 0 < minImmLen d.opcode) : d.isStaticJump = false := by
  have : d.isJump = false := by
    unfold InstData.isJump
    rw [← carriesImm_iff] at h
    unfold carriesImm at h
    rw [Bool.or_eq_false_iff, beq_eq_false_iff_ne, beq_eq_false_iff_ne]
    constructor
    · intro he; rw [he] at h; revert h; decide
    · intro he; rw [he] at h; revert h; decide
  unfold InstData.isStaticJump
  rw [this]; rfl

theorem KeptInst.shape {E : List (Nat × Nat)} {d d' : InstData} (h : KeptInst E d d') :
    Verif.shape d' = Verif.shape d := by
  unfold Verif.shape
  rw [h.op]
  by_cases hi : 0 < minImmLen d.opcode
  · rw [if_pos hi, if_pos hi, h.same (.inl (not_jump_of_imm hi))]
  · rw [if_neg hi, if_neg hi]

theorem KeptInsts.decoded {E : List (Nat × Nat)} {l l' : List InstData} (h : KeptInsts E l l') {code : Code}
    (hd : Decoded code l) : Decoded code l' := by
  obtain ⟨io, val, hv⟩ := hd
  refine ⟨io, val, fun i d' hd' => ?_⟩
  have hl : i < l.length := by rw [← h.len]; exact (List.getElem?_eq_some_iff.1 hd').1
  have hk := h.inst i _ d' (List.getElem?_eq_getElem hl) hd'
  obtain ⟨h1, h2, h3⟩ := hv i _ (List.getElem?_eq_getElem hl)
  rw [hk.op, hk.io]
  refine ⟨h1, fun hc => ?_, h3⟩
  rw [hk.same (.inl (not_jump_of_imm ((carriesImm_iff _).1 hc)))]
  exact h2 hc

theorem slice_map_shape {E : List (Nat × Nat)} {p p' : Prog} (h : KeptInsts E p.insts p'.insts) (s n : Nat) :
    (p'.slice s n).map (fun x => (x.1, shape x.2)) = (p.slice s n).map fun x => (x.1, shape x.2) := by
  unfold Prog.slice
  rw [List.map_filterMap, List.map_filterMap]
  congr 1
  funext i
  cases hg : p.insts[i]? with
  | none =>
    rw [List.getElem?_eq_none_iff] at hg
    rw [List.getElem?_eq_none_iff.2 (by rw [h.len]; exact hg)]
  | some d =>
    obtain ⟨d', h1, h2⟩ := h.get hg
    rw [h1]
    simp only [Option.map_some, h2.shape]

end Verif
