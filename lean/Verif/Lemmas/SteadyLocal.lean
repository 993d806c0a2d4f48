import Verif.Lemmas.SteadyCommit
import Verif.Lemmas.SteadyStack
/-!
# The block-local pass, seen by the later passes

A jump that the local pass resolves to the constant on top of the stack has that constant, or an unknown value,
on top of the stack in every later interpretation.
-/

namespace Verif
open Spec

/-! ## What an interpretation records at one instruction -/

theorem interpBlock_none_append {code : Code} {limit : Nat} {l m : List (Nat × InstData)} {st : AIState}
    {a : List AbsValue} (h : (interpBlock code limit l st a).1 = none) :
    interpBlock code limit (l ++ m) st a = interpBlock code limit l st a := by
  induction l generalizing st a with
  | nil => cases h
  | cons p l ih =>
    simp only [interpBlock, List.cons_append] at h ⊢
    cases h1 : (interpInst code limit st p.1 p.2 a).1 with
    | none => rfl
    | some s =>
      rw [h1] at h
      exact ih h

theorem interpInst_record {code : Code} {limit i : Nat} {st : AIState} {d : InstData} {a : List AbsValue}
    (hl : d.flags.deadCode = false) (hp : 0 < d.stackIo.1) :
    (interpInst code limit st i d a).2.inputs i = (a.take d.stackIo.1).reverse := by
  unfold interpInst
  rw [if_neg (by rw [hl]; simp), if_pos hp]
  dsimp only
  have := (interpOp_snapshots code limit i
    { st with inputs := fun j => if j = i then (a.take d.stackIo.1).reverse else st.inputs j } d a).1
  split
  · rw [this]; simp
  · split
    · dsimp only; rw [this]; simp
    · rw [this]; simp

/-- The operands recorded for instruction `i` are those of the stack before it, or what was there before. -/
theorem interpBlock_record {code : Code} {limit i : Nat} {l m : List (Nat × InstData)} {st : AIState} {d : InstData}
    {a : List AbsValue} (h1 : ∀ x ∈ l, x.1 ≠ i) (h2 : ∀ x ∈ m, x.1 ≠ i) (hl : d.flags.deadCode = false)
    (hp : 0 < d.stackIo.1) :
    ((interpBlock code limit l st a).1 = none ∧
      (interpBlock code limit (l ++ (i, d) :: m) st a).2.inputs i = st.inputs i) ∨
    ∃ A, (interpBlock code limit l st a).1 = some A ∧
      (interpBlock code limit (l ++ (i, d) :: m) st a).2.inputs i = (A.take d.stackIo.1).reverse := by
  cases hr : (interpBlock code limit l st a).1 with
  | none =>
    refine .inl ⟨rfl, ?_⟩
    rw [interpBlock_none_append hr]
    exact (interpBlock_other h1).1
  | some A =>
    refine .inr ⟨A, rfl, ?_⟩
    rw [interpBlock_append hr]
    simp only [interpBlock]
    split
    · exact interpInst_record hl hp
    · rw [(interpBlock_other h2).1]
      exact interpInst_record hl hp

theorem take_reverse_last {A : List AbsValue} {n : Nat} (h : 0 < n) : (A.take n).reverse.getLast? = A.head? := by
  rw [List.getLast?_reverse]
  cases A with
  | nil => simp
  | cons a A =>
    cases n with
    | zero => omega
    | succ n => simp

/-! ## Two interpretations of the same instructions -/

/-- The same live instructions up to control-flow flags. -/
inductive PairR : List (Nat × InstData) → List (Nat × InstData) → Prop
  | nil : PairR [] []
  | cons {i : Nat} {d d' : InstData} {l l' : List (Nat × InstData)} : d.flags.deadCode = false → d'.flags.deadCode = false →
      StdIo d → d'.opcode = d.opcode → d'.stackIo = d.stackIo → d'.data = d.data → PairR l l' →
      PairR ((i, d) :: l) ((i, d') :: l')

theorem slice_cons {p : Prog} {s n : Nat} {d : InstData} (h : p.insts[s]? = some d) :
    p.slice s (n + 1) = (s, d) :: p.slice (s + 1) n := by
  unfold Prog.slice
  rw [List.range'_succ, List.filterMap_cons, h]
  rfl

theorem pairR_slice {p q : Prog} : ∀ (n s : Nat),
    (∀ j, s ≤ j → j < s + n → ∃ d d', p.insts[j]? = some d ∧ q.insts[j]? = some d' ∧ d.flags.deadCode = false ∧
      d'.flags.deadCode = false ∧ StdIo d ∧ d'.opcode = d.opcode ∧ d'.stackIo = d.stackIo ∧ d'.data = d.data) →
    PairR (p.slice s n) (q.slice s n)
  | 0, s, _ => by simp [Prog.slice]; exact .nil
  | n + 1, s, h => by
    obtain ⟨d, d', h1, h2, h3, h4, h5, h6, h7, h8⟩ := h s (Nat.le_refl _) (by omega)
    rw [slice_cons h1, slice_cons h2]
    exact .cons h3 h4 h5 h6 h7 h8 (pairR_slice n (s + 1) fun j h1 h2 => h j (by omega) (by omega))

theorem PairR.run {code : Code} {limit limit' : Nat} (hlim : limit' = limit) {l l' : List (Nat × InstData)}
    (h : PairR l l') : ∀ {st st' : AIState} {L A L' A' : List AbsValue}, StackR L A →
    (interpBlock code limit l st L).1 = some L' → (interpBlock code limit' l' st' A).1 = some A' → StackR L' A' := by
  subst hlim
  induction h with
  | nil => intro st st' L A L' A' hr h1 h2; cases h1; cases h2; exact hr
  | @cons i d d' l l' q1 q2 q3 q4 q5 q6 _ ih =>
    intro st st' L A L' A' hr h1 h2
    simp only [interpBlock] at h1 h2
    split at h1
    · cases h1
    rename_i L1 e1
    split at h2
    · cases h2
    rename_i A1 e2
    obtain ⟨s1, _, _, g1⟩ := interpInst_stack (code := code) (limit := limit') (i := i) (st := st) (a := L) q1
    obtain ⟨s2, _, _, g2⟩ := interpInst_stack (code := code) (limit := limit') (i := i) (st := st') (a := A) q2
    rw [g1] at e1; rw [g2] at e2
    exact ih (hr.op q3 q4 q5 q6 e1 e2) h1 h2

/-! ## Resolutions -/

/-- The cases of `resolveJump`. -/
theorem resolveJump_cases (code : Code) (st : AIState) (i : Nat) (d : InstData) :
    (d.opcode = op.JUMPI ∧ (∃ v, (st.inputs i).head? = some v ∧ resolveCond v = .alwaysFalse) ∧
      resolveJump code st i d = { target := .resolved [i + 1], cond := .alwaysFalse }) ∨
    (∃ v, (st.inputs i).getLast? = some v ∧ (resolveJump code st i d).target = resolveOperand code v ∧
      ((resolveJump code st i d).cond = .unknown → d.opcode = op.JUMPI →
        ∃ u, (st.inputs i).head? = some u ∧ resolveCond u = .unknown)) ∨
    ((st.inputs i).getLast? = none ∧ resolveJump code st i d = { target := .bottom }) := by
  unfold resolveJump
  dsimp only
  by_cases ho : d.opcode = op.JUMPI
  · have hb : (d.opcode == op.JUMPI) = true := by simpa using ho
    simp only [hb, if_true]
    cases hh : (st.inputs i).head? with
    | none =>
      have hn : st.inputs i = [] := List.head?_eq_none_iff.1 hh
      rw [hn]
      exact .inr (.inr ⟨rfl, rfl⟩)
    | some u =>
      dsimp only
      by_cases hc : resolveCond u = .alwaysFalse
      · rw [if_pos hc]
        exact .inl ⟨ho, ⟨u, rfl, hc⟩, rfl⟩
      · rw [if_neg hc]
        cases hl : (st.inputs i).getLast? with
        | none => exact .inr (.inr ⟨rfl, rfl⟩)
        | some v => exact .inr (.inl ⟨v, rfl, rfl, fun h _ => ⟨u, rfl, h⟩⟩)
  · have hb : (d.opcode == op.JUMPI) = false := by simpa using ho
    simp only [hb, Bool.false_eq_true, if_false, reduceCtorEq]
    cases hl : (st.inputs i).getLast? with
    | none => exact .inr (.inr ⟨rfl, rfl⟩)
    | some v => exact .inr (.inl ⟨v, rfl, rfl, fun _ h => absurd h ho⟩)

/-- Resolved targets are destinations, or the next instruction after a JUMPI that is not taken. -/
theorem resolveJump_dest (code : Code) (st : AIState) (i : Nat) (d : InstData) {ts : List Nat}
    (h : (resolveJump code st i d).target = .resolved ts) :
    (ts = [i + 1] ∧ d.opcode = op.JUMPI) ∨ ∀ t ∈ ts, ∃ w, code.target w = some t := by
  rcases resolveJump_cases code st i d with ⟨h1, _, h2⟩ | ⟨v, _, h2, _⟩ | ⟨_, h2⟩
  · rw [h2] at h
    exact .inl ⟨(JumpTarget.resolved.inj h).symm, h1⟩
  · right
    rw [h2] at h
    intro t ht
    unfold resolveOperand at h
    cases v with
    | top => cases h
    | const w =>
      dsimp only at h
      cases hw : code.target w with
      | none => rw [hw] at h; cases h
      | some t' =>
        rw [hw] at h
        cases h
        exact ⟨w, by rw [hw, List.mem_singleton.1 ht]⟩
    | constSet s =>
      dsimp only at h
      cases hm : s.mapM code.target with
      | none => rw [hm] at h; cases h
      | some ts' =>
        rw [hm] at h
        cases ts' with
        | nil => cases h
        | cons a ts' =>
          cases h
          exact mapM_image hm ht
  · rw [h2] at h; cases h

/-! ## What the local pass resolves -/

/-- A resolution of the local pass: the block that ends in the jump was interpreted from unknown operands. -/
structure LocRes (code : Code) (limit : Nat) (p : Prog) (st : AIState) (x : Nat × JumpRes) (b : Nat × Nat)
    (d : InstData) (t : Nat) (st0 : AIState) : Prop where
  block : b ∈ p.blocks
  last : x.1 + 1 = b.2
  get : p.insts[x.1]? = some d
  jump : d.isJump = true
  raw : d.flags.staticJump = false
  res : x.2 = resolveJump code st x.1 d
  one : x.2.target = .resolved [t]
  ran : (interpBlock code limit (p.blockInsts b) st0 (localEntry p b)).1 ≠ none
  snap : st.inputs x.1 = (interpBlock code limit (p.blockInsts b) st0 (localEntry p b)).2.inputs x.1

theorem localBlock_cases (code : Code) (limit : Nat) (p : Prog) (b : Nat × Nat) (acc : AIState × List (Nat × JumpRes)) :
    (localBlock code limit p b acc).2 = acc.2 ∨ ∃ d t, p.insts[b.2 - 1]? = some d ∧ d.isJump = true ∧
      d.flags.staticJump = false ∧ (resolveJump code (localBlock code limit p b acc).1 (b.2 - 1) d).target = .resolved [t] ∧
      (interpBlock code limit (p.blockInsts b) acc.1 (localEntry p b)).1 ≠ none ∧
      (localBlock code limit p b acc).2 =
        acc.2 ++ [(b.2 - 1, resolveJump code (localBlock code limit p b acc).1 (b.2 - 1) d)] := by
  rw [localBlock_fst]
  unfold localBlock localEntry
  dsimp only
  split
  · exact .inl rfl
  · rename_i s hs
    split
    · exact .inl rfl
    · rename_i d hd
      split
      · exact .inl rfl
      · rename_i hc
        simp only [Bool.or_eq_true, Bool.not_eq_true', not_or, Bool.not_eq_true, Bool.not_eq_false] at hc
        split
        · rename_i t ht
          exact .inr ⟨d, t, hd, hc.1, hc.2, ht, by rw [hs]; simp, rfl⟩
        · exact .inl rfl

theorem local_res (code : Code) (limit : Nat) (p : Prog) : ∀ (bs : List (Nat × Nat)) (lo : Nat)
    (acc : AIState × List (Nat × JumpRes)), bs.Pairwise (fun a b => a.2 ≤ b.1) → (∀ b ∈ bs, lo ≤ b.1 ∧ b.1 < b.2 ∧ b ∈ p.blocks) →
    (acc.2.map (·.1)).Nodup → (∀ x ∈ acc.2, x.1 < lo ∧ ∃ b d t st0, LocRes code limit p acc.1 x b d t st0) →
    ((bs.foldl (fun acc b => localBlock code limit p b acc) acc).2.map (·.1)).Nodup ∧
    ∀ x ∈ (bs.foldl (fun acc b => localBlock code limit p b acc) acc).2, ∃ b d t st0,
      LocRes code limit p (bs.foldl (fun acc b => localBlock code limit p b acc) acc).1 x b d t st0 := by
  intro bs
  induction bs with
  | nil => intro lo acc _ _ h1 h2; exact ⟨h1, fun x hx => (h2 x hx).2⟩
  | cons b bs ih =>
    intro lo acc hs hb h1 h2
    rw [List.foldl_cons]
    rw [List.pairwise_cons] at hs
    obtain ⟨q1, q2, q3⟩ := hb b List.mem_cons_self
    have hkeep : ∀ x ∈ acc.2, x.1 < b.2 ∧ ∃ b' d t st0, LocRes code limit p (localBlock code limit p b acc).1 x b' d t st0 := by
      intro x hx
      obtain ⟨hlt, b', d, t, st0, r⟩ := h2 x hx
      have e : (localBlock code limit p b acc).1.inputs x.1 = acc.1.inputs x.1 := by
        rw [localBlock_fst]
        refine (interpBlock_other fun y hy => ?_).1
        have := (blockInsts_idx hy).2.1
        omega
      exact ⟨by omega, b', d, t, st0, r.block, r.last, r.get, r.jump, r.raw,
        by rw [resolveJump_congr e]; exact r.res, r.one, r.ran, by rw [e]; exact r.snap⟩
    refine ih b.2 _ hs.2 (fun b' hb' => ⟨hs.1 b' hb', (hb b' (List.mem_cons_of_mem _ hb')).2⟩) ?_ ?_
    · rcases localBlock_cases code limit p b acc with e | ⟨d, t, _, _, _, _, _, e⟩
      · rw [e]; exact h1
      · rw [e, List.map_append, List.nodup_append]
        refine ⟨h1, by simp, fun a ha c hc => ?_⟩
        obtain ⟨x, hx, rfl⟩ := List.mem_map.1 ha
        have := (h2 x hx).1
        simp only [List.map_cons, List.map_nil, List.mem_singleton] at hc
        omega
    · intro x hx
      rcases localBlock_cases code limit p b acc with e | ⟨d, t, g1, g2, g3, g4, g5, e⟩
      · rw [e] at hx; exact hkeep x hx
      · rw [e] at hx
        rcases List.mem_append.1 hx with hx | hx
        · exact hkeep x hx
        · rw [List.mem_singleton] at hx
          subst hx
          exact ⟨by dsimp only; omega, b, d, t, acc.1, q3, by dsimp only; omega, g1, g2, g3, rfl, g4, g5, by
            rw [localBlock_fst]⟩

/-- The resolutions committed by the local pass. -/
def localRes (code : Code) (limit : Nat) (p : Prog) : List (Nat × JumpRes) :=
  (p.blocks.foldl (fun acc b => localBlock code limit p b acc) ({}, [])).2

theorem localRes_ok (code : Code) (limit : Nat) (p : Prog) : ((localRes code limit p).map (·.1)).Nodup ∧
    ∀ x ∈ localRes code limit p, ∃ b d t st0, LocRes code limit p (blockAnalysisLocal code limit p {}).2 x b d t st0 :=
  local_res code limit p p.blocks 0 ({}, []) p.blocks_ok.sorted
    (fun b hb => ⟨Nat.zero_le _, (p.blocks_ok.range b hb).2.1, hb⟩) (by simp) (by simp)

theorem blockAnalysisLocal_fst (code : Code) (limit : Nat) (p : Prog) : (blockAnalysisLocal code limit p {}).1 =
    (p.commit (localRes code limit p)).recomputeHasDyn := rfl

end Verif
