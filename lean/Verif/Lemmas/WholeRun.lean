import Verif.Lemmas.WholeBlock
/-!
# Executions of a whole program, block by block
-/

namespace Verif
open Spec
variable {F : Type}

/-! ## What the compiler has established -/

/-- The facts about a compiled program that its correctness rests on. -/
structure GoodC (base : List InstData) (ok : Nat → List Word → Prop) (o : WOpts) (C : Compiled) : Prop where
  wf : FlowWf C.code base
  sound : Sound C.code base ok C.prog
  snap : SnapOk C.code base ok C.ai
  out : OutOk C.code base ok C.ai
  flagged : Flagged C.prog
  noswap : NoSwapOut base C.ai
  exp : ExpOut base C.ai
  inst : ∀ (i : Nat) d, C.prog.insts[i]? = some d → Wf C.code (i, d)
  blocks : compileBlocks o C.code C.prog C.ai C.prog.blocks = some C.blocks

theorem goodC_of {g : UInt8 → BitVec 16} {spec : SpecId} {limit : Nat} {bytes : List UInt8} {o : WOpts}
    {C : Compiled} (hC : compileBytes o g spec limit bytes = some C) (hlen : bytes.length ≤ 2 ^ 31) :
    GoodC (parse g spec bytes).toProg.insts (shallow (parse g spec bytes).toProg.insts) o C ∧
      C.code = (parse g spec bytes).toCode := by
  have hwf := flowWf_parse g spec bytes hlen
  obtain ⟨h1, h2, h3, h4⟩ := sound_bytes (g := g) (spec := spec) (limit := limit) hlen
  have h5 : NoSwapOut (parse g spec bytes).toProg.insts (analyzeBytes g spec limit bytes).2 := by
    unfold analyzeBytes
    exact analyzeFlow_noSwap (limit := limit) hwf
  have h7 : ExpOut (parse g spec bytes).toProg.insts (analyzeBytes g spec limit bytes).2 := by
    unfold analyzeBytes
    exact analyzeFlow_exp (limit := limit) hwf
  have h6 : ∀ (i : Nat) d, (analyzeBytes g spec limit bytes).1.insts[i]? = some d →
      Wf (parse g spec bytes).toCode (i, d) := fun i d hd => wf_of hlen h1.ev hd
  unfold compileBytes at hC
  revert hC h1 h2 h3 h4 h5 h6 h7
  generalize analyzeBytes g spec limit bytes = r
  intro hC h1 h2 h3 h4 h5 h7 h6
  obtain ⟨bs, hb, rfl⟩ := Option.map_eq_some_iff.1 hC
  exact ⟨⟨hwf, h1, h2, h3, h4, h5, h7, h6, hb⟩, rfl⟩

theorem compileBlocks_find {o : WOpts} {code : Code} {p : Prog} {ai : AIState} :
    ∀ {bs : List (Nat × Nat)} {out : List CBlock}, compileBlocks o code p ai bs = some out →
      bs.Pairwise (fun a b => a.1 ≠ b.1) → ∀ b ∈ bs, ∃ l',
        (if o.dse then dseBlock o.inspect code ai (p.blockInsts b) else some (p.blockInsts b)) = some l' ∧
        (out.find? fun x => x.start == b.1) = some { start := b.1, stop := b.2, insts := l' }
  | [], _, _, _, b, hb => by simp at hb
  | a :: bs, out, h, hp, b, hb => by
    unfold compileBlocks at h
    obtain ⟨x, hx, h⟩ := Option.bind_eq_some_iff.1 h
    obtain ⟨xs, hxs, rfl⟩ := Option.map_eq_some_iff.1 h
    unfold compileBlock at hx
    obtain ⟨l', hl, hx⟩ := Option.bind_eq_some_iff.1 hx
    split at hx
    · cases hx
      rw [List.pairwise_cons] at hp
      rcases List.mem_cons.1 hb with rfl | hb
      · exact ⟨l', hl, by simp⟩
      · obtain ⟨l2, h1, h2⟩ := compileBlocks_find hxs hp.2 b hb
        refine ⟨l2, h1, ?_⟩
        have hne := hp.1 b hb
        rw [List.find?_cons]
        simp only [beq_eq_false_iff_ne.2 hne]
        exact h2
    · cases hx

section good
variable {base : List InstData} {ok : Nat → List Word → Prop} {o : WOpts} {C : Compiled} (G : GoodC base ok o C)
include G

theorem GoodC.find {b : Nat × Nat} (hb : b ∈ C.prog.blocks) : ∃ l',
    (if o.dse then dseBlock o.inspect C.code C.ai (C.prog.blockInsts b) else some (C.prog.blockInsts b)) = some l' ∧
    (C.blocks.find? fun x => x.start == b.1) = some { start := b.1, stop := b.2, insts := l' } := by
  refine compileBlocks_find G.blocks ?_ b hb
  refine List.Pairwise.imp_of_mem ?_ C.prog.blocks_ok.sorted
  intro a c ha _ hac
  have := C.prog.blocks_ok.range a ha
  omega

theorem GoodC.world {env : Env F} (hw : WorldX C.ai base env) : WorldX C.ai C.prog.insts env := by
  constructor
  · intro k i d args hd
    obtain ⟨d0, h0, he⟩ := G.sound.ev.back hd
    rw [hw.len k i d0 args h0, he.io]
  · intro k i d args hd hs
    obtain ⟨d0, h0, he⟩ := G.sound.ev.back hd
    exact hw.quiet k i d0 args h0 (by rw [← he.op]; exact hs)
  · intro k i d args hd hs
    obtain ⟨d0, h0, he⟩ := G.sound.ev.back hd
    exact hw.exp k i d0 args h0 (by rw [← he.op]; exact hs)
  · intro k i d x y hd hs
    obtain ⟨d0, h0, he⟩ := G.sound.ev.back hd
    exact hw.hash k i d0 x y h0 (by rw [← he.op]; exact hs)

omit G in
theorem follows_evolve {code : Code} {env : Env F} {k i : Nat} {d0 d : InstData} {c c' : List Word}
    (he : EvolvesInst d0 d) (h : Follows code env k i d0 c c') : Follows code env k i d c c' := by
  unfold Follows at *
  rw [he.op, he.io]
  intro h1 h2 h3
  refine h h1 h2 ?_
  cases hj : d0.isJump with
  | false => rw [← he.data hj]; exact h3
  | true =>
    refine evalOp_jump _ _ _ _ ?_
    unfold InstData.isJump at hj
    simp only [Bool.or_eq_true, beq_iff_eq] at hj
    rcases hj with hj | hj
    · exact .inl (by rw [hj]; rfl)
    · exact .inr (by rw [hj]; rfl)

omit G in
theorem observed_evolve {env : Env F} {k i : Nat} {d0 d : InstData} {c : List Word}
    (he : EvolvesInst d0 d) : observed env k i d c = observed env k i d0 c := by
  unfold observed
  rw [he.dis, he.unk, he.op, he.io]

theorem GoodC.snapAt {i : Nat} {c : List Word} {d : InstData} (hr : Reach C.code base ok i c)
    (hd : C.prog.insts[i]? = some d) (hl : d.stackIo.1 ≤ c.length) :
    0 < d.stackIo.1 → SnapAt C.ai i d.stackIo.1 c := by
  obtain ⟨d0, h0, he⟩ := G.sound.ev.back hd
  rw [he.io] at hl ⊢
  exact fun h => G.snap i c d0 hr h0 h hl

omit G in
theorem fullSnap_of {st : AIState} {i : Nat} {d : InstData} {c : List Word}
    (h : 0 < d.stackIo.1 → SnapAt st i d.stackIo.1 c) : FullSnap st (i, d) := by
  intro h0
  obtain ⟨a, h1, _, h3⟩ := (h h0).snap
  left
  rw [h1, List.length_reverse, List.length_take]
  exact Nat.min_eq_left h3

/-- A step of the EVM at a visited position, seen as the code of the instruction. -/
theorem GoodC.step {env : Env F} {clob : Nat → Int → Word} (hw : WorldX C.ai base env) {i i' s k0 : Nat}
    {c c' : List Word} {d0 d : InstData}
    (hr : Reach C.code base ok i c) (h0 : base[i]? = some d0) (hs : Step C.code base i c i' c')
    (hf : Follows C.code env (k0 + (i - s)) i d0 c c') (hd : C.prog.insts[i]? = some d) :
    Fit (toT C.code C.ai (actOf C.code C.prog env k0 s) clob (i, d)) c c'
      (observed env (k0 + (i - s)) i d0 c) ∧ FullSnap C.ai (i, d) ∧ badImm C.code (i, d) = false := by
  obtain ⟨hh, hio, hst⟩ := step_effect G.wf G.sound.ev hs hd
  have he := G.sound.ev.inst _ _ _ h0 hd
  obtain ⟨hlen, _, hdec⟩ := step_len hio hst
  have hsn := G.snapAt hr hd hlen
  have hji := jump_io hio
  refine ⟨?_, fullSnap_of hsn, ?_⟩
  · rw [← observed_evolve (env := env) he]
    refine step_fit hd (G.inst i d hd) hh hst (follows_evolve he hf) (G.world hw) hsn ?_ ?_
    · intro c2 hst2 v ho hnsw hv
      have hj : d.isJump = false := by
        cases hj : d.isJump with
        | false => rfl
        | true =>
          exfalso
          unfold InstData.isJump at hj
          simp only [Bool.or_eq_true, beq_iff_eq] at hj
          rcases hj with hj | hj
          · rw [hji.1 hj] at ho; simp at ho
          · rw [hji.2 hj] at ho; simp at ho
      have hj0 : d0.isJump = false := by rw [← he.isJump]; exact hj
      have hj1 : d0.opcode ≠ op.JUMP ∧ d0.opcode ≠ op.JUMPI := by
        unfold InstData.isJump at hj0
        simpa using hj0
      rw [he.data hj0, he.op, he.io] at hst2
      have hs2 : Step C.code base i c (i + 1) c2 := by
        refine .seq h0 (fun h => hh (he.halts.2 h)) ?_ ?_ hst2
        · exact fun h => hj1.1 (toNat_eq (k := 0x56) (by omega) h)
        · exact fun h => hj1.2 (toNat_eq (k := 0x57) (by omega) h)
      unfold AIState.constOutput at hv
      obtain ⟨a, ha, hac⟩ := Option.bind_eq_some_iff.1 hv
      obtain ⟨w, h1, h2⟩ := G.out i c _ c2 d0 a hr hs2 h0 (by rw [← he.io]; exact ho)
        (by rw [← he.op]; exact hnsw) ha
      rw [h1, asConst_admits hac h2]
    · intro hsw
      exact G.noswap i d0 h0 (by rw [← he.op]; exact hsw)
  · unfold badImm
    unfold Decodable at hdec
    simp only at hdec ⊢
    unfold decodeImm
    by_cases h1 : d.opcode = op.DUPN ∨ d.opcode = op.SWAPN
    · obtain ⟨n, hn⟩ := Option.ne_none_iff_exists'.1 (hdec.1 h1)
      have : (d.opcode == op.DUPN || d.opcode == op.SWAPN) = true := by simpa using h1
      rw [this, hn]; simp
    · by_cases h2 : d.opcode = op.EXCHANGE
      · obtain ⟨n, hn⟩ := Option.ne_none_iff_exists'.1 (hdec.2 h2)
        have : (d.opcode == op.DUPN || d.opcode == op.SWAPN) = false := by simpa using h1
        have h3 : (d.opcode == op.EXCHANGE) = true := by simpa using h2
        rw [this, hn, h3]; simp
      · have : (d.opcode == op.DUPN || d.opcode == op.SWAPN) = false := by simpa using h1
        have h3 : (d.opcode == op.EXCHANGE) = false := by simpa using h2
        rw [this, h3]; simp

end good

/-- Executions visit reachable positions. -/
theorem Spec.Run.reach {code : Code} {insts : List InstData} {env : Env F} {ok : Nat → List Word → Prop}
    {k i : Nat} {c : List Word} {tr : List (Obs F)} (h : Run code insts env ok k i c tr) :
    Reach code insts ok i c ∧ c.length ≤ 1024 := by
  induction h with
  | start h => exact ⟨.start h, by simp⟩
  | step _ _ hs _ hl hok ih => exact ⟨.step ih.1 hs hok, hl⟩

/-- The generated code of a jump reads the operands it needs. -/
theorem compiledNext_read (p : Prog) (code : Code) (i : Nat) (d : InstData) (c : List Word)
    (hc : d.stackIo.1 ≤ c.length) (hio : d.stackIo = if d.opcode == op.JUMPI then (2, 0) else (1, 0)) :
    p.compiledNext code i d
      [(if (!d.flags.invalidJump && (d.flags.multiJump || !d.flags.staticJump)) = true then c[0]? else none).getD 0,
       (if (d.opcode == op.JUMPI && (d.opcode == op.JUMPI && !d.hasConstJumpiCondition)) = true then c[1]? else none).getD 0] =
    p.compiledNext code i d c := by
  cases c with
  | nil =>
    exfalso
    rw [hio] at hc
    split at hc <;> simp at hc
  | cons w c =>
    have h2 : d.opcode = op.JUMPI → ∃ b r, c = b :: r := by
      intro h
      rw [hio, if_pos (by simpa using h)] at hc
      cases c with
      | nil => simp at hc
      | cons b r => exact ⟨b, r, rfl⟩
    unfold Prog.compiledNext
    simp only [List.headD_cons, List.tail_cons, List.getElem?_cons_zero]
    by_cases hj : d.opcode = op.JUMPI
    · obtain ⟨b, r, rfl⟩ := h2 hj
      cases h1 : d.hasConstJumpiCondition <;> cases h3 : d.flags.invalidJump <;> cases h4 : d.flags.multiJump <;>
        cases h5 : d.flags.staticJump <;> simp [hj]
    · cases h3 : d.flags.invalidJump <;> cases h4 : d.flags.multiJump <;>
        cases h5 : d.flags.staticJump <;> simp [hj]

end Verif
