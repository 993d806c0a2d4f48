import Verif.Lemmas.WholeInv
/-!
# Computing executions of the EVM

An evaluator for the executions of `Spec.Run`, used to show that the EVM always continues or ends in one of the
ways the theorems treat, and for concrete executions.
-/

namespace Verif
open Spec
variable {F : Type}

/-- Exchanges positions `a < b`. -/
def swapPos (c : List Word) (a b : Nat) : Option (List Word) :=
  match c[a]?, c[b]? with
  | some x, some y => if a < b then some (c.take a ++ y :: ((c.drop (a + 1)).take (b - a - 1) ++ x :: c.drop (b + 1))) else none
  | _, _ => none

theorem swapPos_eq {c c' : List Word} {a b : Nat} (h : swapPos c a b = some c') : ∃ x y p m r, c = p ++ x :: m ++ y :: r ∧
    c' = p ++ y :: m ++ x :: r ∧ p.length = a ∧ p.length + m.length + 1 = b := by
  unfold swapPos at h
  cases hx : c[a]? with
  | none => rw [hx] at h; cases h
  | some x =>
    cases hy : c[b]? with
    | none => rw [hx, hy] at h; cases h
    | some y =>
      rw [hx, hy] at h
      dsimp only at h
      split at h
      · rename_i hlt
        cases h
        obtain ⟨ha, hxa⟩ := List.getElem?_eq_some_iff.1 hx
        obtain ⟨hb, hyb⟩ := List.getElem?_eq_some_iff.1 hy
        refine ⟨x, y, c.take a, (c.drop (a + 1)).take (b - a - 1), c.drop (b + 1), ?_, ?_, ?_, ?_⟩
        · have h1 : c = c.take a ++ x :: c.drop (a + 1) := by
            rw [← hxa, List.getElem_cons_drop, List.take_append_drop]
          have h2 : c.drop (a + 1) = (c.drop (a + 1)).take (b - a - 1) ++ y :: c.drop (b + 1) := by
            have h3 : (c.drop (a + 1))[b - a - 1]? = some y := by
              rw [List.getElem?_drop, show a + 1 + (b - a - 1) = b by omega]; exact hy
            obtain ⟨hb', hyb'⟩ := List.getElem?_eq_some_iff.1 h3
            have h4 : c.drop (b + 1) = (c.drop (a + 1)).drop (b - a - 1 + 1) := by
              rw [List.drop_drop, show a + 1 + (b - a - 1 + 1) = b + 1 by omega]
            rw [h4, ← hyb', List.getElem_cons_drop, List.take_append_drop]
          rw [List.append_assoc, List.cons_append, ← h2, ← h1]
        · rw [List.append_assoc, List.cons_append]
        · rw [List.length_take]; omega
        · rw [List.length_take, List.length_take, List.length_drop]; omega
      · cases h

theorem swapPos_some {c : List Word} {a b : Nat} (h : a < b) (hb : b < c.length) : ∃ c', swapPos c a b = some c' := by
  unfold swapPos
  rw [List.getElem?_eq_getElem hb, List.getElem?_eq_getElem (by omega : a < c.length)]
  exact ⟨_, if_pos h⟩

/-- The stack after an instruction that is not a jump. -/
def evmStack (code : Code) (env : Env F) (k i : Nat) (d : InstData) (c : List Word) : Option (List Word) :=
  if c.length < d.stackIo.1 then none
  else if 0x5f ≤ d.opcode.toNat ∧ d.opcode.toNat ≤ 0x7f then some (code.imm i :: c)
  else if 0x80 ≤ d.opcode.toNat ∧ d.opcode.toNat ≤ 0x8f then (c[d.opcode.toNat - 0x80]?).map (· :: c)
  else if 0x90 ≤ d.opcode.toNat ∧ d.opcode.toNat ≤ 0x9f then swapPos c 0 (d.opcode.toNat - 0x90 + 1)
  else if d.opcode.toNat = 0xe6 then
    (single ((code.imm i).toNat % 256)).bind fun n => (c[n - 1]?).map (· :: c)
  else if d.opcode.toNat = 0xe7 then
    (single ((code.imm i).toNat % 256)).bind fun n => swapPos c 0 n
  else if d.opcode.toNat = 0xe8 then
    (pair ((code.imm i).toNat % 256)).bind fun p => swapPos c p.1 p.2
  else match evalOp code.codeLen d.data d.opcode.toNat (c.take d.stackIo.1) with
    | some w => some (w :: c.drop d.stackIo.1)
    | none => some ((env k i (c.take d.stackIo.1)).1 ++ c.drop d.stackIo.1)

/-- `Follows` and the effect on the stack. -/
theorem evmStack_sound {code : Code} {env : Env F} {insts : List InstData}
    (hw : ∀ k i d args, insts[i]? = some d → (env k i args).1.length = d.stackIo.2) {k i : Nat}
    {d : InstData} (hd : insts[i]? = some d) {c c' : List Word} (h : evmStack code env k i d c = some c') :
    StackStep code.codeLen d.data d.opcode.toNat (code.imm i) d.stackIo.1 d.stackIo.2 c c' ∧
      Follows code env k i d c c' := by
  unfold evmStack at h
  split at h
  · cases h
  rename_i hlen
  split at h
  · rename_i h1
    cases h
    exact ⟨.push _ h1.1 h1.2, fun hn => absurd ⟨h1.1, by omega⟩ hn⟩
  rename_i n1
  split at h
  · rename_i h1
    obtain ⟨w, hw, rfl⟩ := Option.map_eq_some_iff.1 h
    exact ⟨.dup _ _ h1.1 h1.2 hw, fun hn => absurd ⟨by omega, by omega⟩ hn⟩
  rename_i n2
  split at h
  · rename_i h1
    obtain ⟨x, y, p, m, r, rfl, rfl, hp, hm⟩ := swapPos_eq h
    have : p = [] := List.length_eq_zero_iff.1 hp
    subst this
    exact ⟨.swap _ _ _ _ h1.1 h1.2 (by simp at hm; omega), fun hn => absurd ⟨by omega, by omega⟩ hn⟩
  rename_i n3
  split at h
  · rename_i h1
    obtain ⟨n, hn, h⟩ := Option.bind_eq_some_iff.1 h
    obtain ⟨w, hw, rfl⟩ := Option.map_eq_some_iff.1 h
    exact ⟨.dupn _ _ n h1 hn hw, fun _ hn => absurd (by rw [h1]; decide) hn⟩
  rename_i n4
  split at h
  · rename_i h1
    obtain ⟨n, hn, h⟩ := Option.bind_eq_some_iff.1 h
    obtain ⟨x, y, p, m, r, rfl, rfl, hp, hm⟩ := swapPos_eq h
    have : p = [] := List.length_eq_zero_iff.1 hp
    subst this
    refine ⟨.swapn _ _ _ _ h1 ?_, fun _ hn => absurd (by rw [h1]; decide) hn⟩
    rw [hn, ← hm]; simp
  rename_i n5
  split at h
  · rename_i h1
    obtain ⟨n, hn, h⟩ := Option.bind_eq_some_iff.1 h
    obtain ⟨x, y, p, m, r, rfl, rfl, hp, hm⟩ := swapPos_eq h
    refine ⟨.exchange _ _ _ _ _ h1 ?_, fun _ hn => absurd (by rw [h1]; decide) hn⟩
    rw [hn, hm, hp]
  rename_i n6
  have hc : c.take d.stackIo.1 ++ c.drop d.stackIo.1 = c := List.take_append_drop _ _
  cases hev : evalOp code.codeLen d.data d.opcode.toNat (c.take d.stackIo.1) with
  | some w =>
    rw [hev] at h
    cases h
    refine ⟨?_, fun _ _ hn => by rw [hev] at hn; cases hn⟩
    have := StackStep.pure (codeLen := code.codeLen) (imm := code.imm i) (inp := d.stackIo.1) (out := d.stackIo.2)
      (c.take d.stackIo.1) (c.drop d.stackIo.1) w hev
    rw [hc] at this
    exact this
  | none =>
    rw [hev] at h
    cases h
    refine ⟨?_, fun _ _ _ => rfl⟩
    have := StackStep.other (codeLen := code.codeLen) (pc := d.data) (o := d.opcode.toNat) (imm := code.imm i)
      (inp := d.stackIo.1) (out := d.stackIo.2)
      (c.take d.stackIo.1) (env k i (c.take d.stackIo.1)).1 (c.drop d.stackIo.1) (by omega)
      (by simp only [List.mem_cons, List.not_mem_nil, or_false, not_or]; omega)
      (by rw [List.length_take]; omega) (hw _ _ _ _ hd) hev
    rw [hc] at this
    exact this

/-- With its operands and a decodable immediate, an instruction can be executed. -/
theorem evmStack_total {code : Code} (env : Env F) (k : Nat) {i : Nat} {d : InstData} {c : List Word}
    (hio : d.stackIo = computeStackIo d.opcode (some [UInt8.ofNat (code.imm i).toNat])) (hlen : d.stackIo.1 ≤ c.length)
    (himm : badImm code (i, d) = false) (hoff : (d.flags.disabled || d.flags.unknown) = false) :
    ∃ c', evmStack code env k i d c = some c' := by
  have hbyte : (UInt8.ofNat (code.imm i).toNat).toNat = (code.imm i).toNat % 256 := by simp
  unfold evmStack
  rw [if_neg (by omega)]
  split
  · exact ⟨_, rfl⟩
  split
  · rename_i h1
    obtain ⟨a1, a2, a3, a4⟩ := dup_table _ h1
    have hio' : d.stackIo = (d.opcode.toNat - 0x80 + 1, d.opcode.toNat - 0x80 + 1 + 1) := by
      rw [hio]; unfold computeStackIo; rw [if_neg a2, if_neg a3, if_neg a4, a1]
    rw [hio'] at hlen
    dsimp only at hlen
    rw [List.getElem?_eq_getElem (by omega)]
    exact ⟨_, rfl⟩
  split
  · rename_i h1
    obtain ⟨a1, a2, a3, a4⟩ := swap_table _ h1
    have hio' : d.stackIo.1 = d.opcode.toNat - 0x90 + 2 := by
      rw [hio]; unfold computeStackIo; rw [if_neg a2, if_neg a3, if_neg a4, a1]
    exact swapPos_some (by omega) (by omega)
  have hdec : ∀ o : UInt8, d.opcode = o → (o = op.DUPN ∨ o = op.SWAPN ∨ o = op.EXCHANGE) →
      (decodeImm code i o).isSome = true := by
    intro o ho hx
    unfold badImm at himm
    dsimp only at himm
    rw [hoff] at himm
    have h2 : (d.opcode == op.DUPN || d.opcode == op.SWAPN || d.opcode == op.EXCHANGE) = true := by
      rw [ho]
      rcases hx with rfl | rfl | rfl <;> rfl
    rw [h2, ho] at himm
    simpa using himm
  split
  · rename_i h1
    have ho : d.opcode = op.DUPN := toNat_eq (k := 0xe6) (by omega) h1
    have hs := decodeSingle_spec (UInt8.ofNat (code.imm i).toNat)
    have hsh := single_shape (UInt8.ofNat (code.imm i).toNat)
    have hd := hdec _ ho (.inl rfl)
    unfold decodeImm at hd
    rw [if_pos (by rfl)] at hd
    rw [Option.isSome_map] at hd
    obtain ⟨m, hm⟩ := Option.isSome_iff_exists.1 hd
    rw [hm] at hs hsh
    rw [hbyte, Option.map_some] at hs
    simp only [Option.all_some, decide_eq_true_eq] at hsh
    unfold computeStackIo at hio
    dsimp only at hio
    rw [if_pos ho, hm] at hio
    simp only [Option.map_some, Option.getD_some] at hio
    rw [hio] at hlen
    dsimp only at hlen
    rw [← hs, Option.bind_some, List.getElem?_eq_getElem (by omega)]
    exact ⟨_, rfl⟩
  split
  · rename_i h1
    have ho : d.opcode = op.SWAPN := toNat_eq (k := 0xe7) (by omega) h1
    have hs := decodeSingle_spec (UInt8.ofNat (code.imm i).toNat)
    have hsh := single_shape (UInt8.ofNat (code.imm i).toNat)
    have hd := hdec _ ho (.inr (.inl rfl))
    unfold decodeImm at hd
    rw [if_pos (by rfl)] at hd
    rw [Option.isSome_map] at hd
    obtain ⟨m, hm⟩ := Option.isSome_iff_exists.1 hd
    rw [hm] at hs hsh
    rw [hbyte, Option.map_some] at hs
    simp only [Option.all_some, decide_eq_true_eq] at hsh
    unfold computeStackIo at hio
    dsimp only at hio
    rw [if_neg (by rw [ho]; decide), if_pos ho, hm] at hio
    simp only [Option.map_some, Option.getD_some] at hio
    rw [hio] at hlen
    dsimp only at hlen
    rw [← hs, Option.bind_some]
    exact swapPos_some (by omega) (by omega)
  split
  · rename_i h1
    have ho : d.opcode = op.EXCHANGE := toNat_eq (k := 0xe8) (by omega) h1
    have hs := decodePair_spec (UInt8.ofNat (code.imm i).toNat)
    have hsh := pair_shape (UInt8.ofNat (code.imm i).toNat)
    have hd := hdec _ ho (.inr (.inr rfl))
    unfold decodeImm at hd
    rw [if_neg (by decide), if_pos (by rfl)] at hd
    rw [Option.isSome_map] at hd
    obtain ⟨m, hm⟩ := Option.isSome_iff_exists.1 hd
    rw [hm] at hs hsh
    rw [hbyte, Option.map_some] at hs
    simp only [Option.all_some, decide_eq_true_eq] at hsh
    unfold computeStackIo at hio
    dsimp only at hio
    rw [if_neg (by rw [ho]; decide), if_neg (by rw [ho]; decide), if_pos ho, hm] at hio
    simp only [Option.map_some, Option.getD_some] at hio
    rw [hio] at hlen
    dsimp only at hlen
    rw [← hs, Option.bind_some]
    exact swapPos_some hsh (by omega)
  · split <;> exact ⟨_, rfl⟩

instance (d : InstData) : Decidable (Halts d) := by unfold Halts; infer_instance

/-- One step: the next instruction, the stack and what is observed. -/
def evmStep (code : Code) (insts : List InstData) (env : Env F) (k i : Nat) (c : List Word) :
    Option (Nat × List Word) :=
  match insts[i]? with
  | none => none
  | some d =>
    if Halts d then none
    else if d.opcode.toNat = 0x56 then
      match c with
      | [] => none
      | w :: r => (code.target w).map fun t => (t, r)
    else if d.opcode.toNat = 0x57 then
      match c with
      | w :: b :: r => if b = 0#256 then some (i + 1, r) else (code.target w).map fun t => (t, r)
      | _ => none
    else (evmStack code env k i d c).map fun c' => (i + 1, c')

theorem evmStep_sound {code : Code} {env : Env F} {insts : List InstData}
    (hw : ∀ k i d args, insts[i]? = some d → (env k i args).1.length = d.stackIo.2) {k i i' : Nat}
    {d : InstData} (hd : insts[i]? = some d) (hio : ¬ Halts d → d.opcode.toNat = 0x56 ∨ d.opcode.toNat = 0x57 →
      d.stackIo = if d.opcode.toNat = 0x57 then (2, 0) else (1, 0)) {c c' : List Word}
    (h : evmStep code insts env k i c = some (i', c')) :
    Step code insts i c i' c' ∧ Follows code env k i d c c' := by
  unfold evmStep at h
  rw [hd] at h
  dsimp only at h
  split at h
  · cases h
  rename_i hh
  have hnil : ∀ args, d.opcode.toNat = 0x56 ∨ d.opcode.toNat = 0x57 → (env k i args).1 = [] := by
    intro args hj
    have := hw k i d args hd
    rw [hio hh hj] at this
    split at this <;> exact List.length_eq_zero_iff.1 this
  split at h
  · rename_i h1
    cases c with
    | nil => cases h
    | cons w r =>
      obtain ⟨t, ht, he⟩ := Option.map_eq_some_iff.1 h
      cases he
      refine ⟨.jump hd hh h1 ht, fun _ _ _ => ?_⟩
      rw [hnil _ (.inl h1), hio hh (.inl h1), if_neg (by omega)]; rfl
  rename_i n1
  split at h
  · rename_i h1
    match c with
    | [] => cases h
    | [_] => cases h
    | w :: b :: r =>
      dsimp only at h
      have hfo : Follows code env k i d (w :: b :: r) r := fun _ _ _ => by
        rw [hnil _ (.inr h1), hio hh (.inr h1), if_pos h1]; rfl
      by_cases hb : b = 0#256
      · rw [if_pos hb] at h; cases h
        refine ⟨?_, hfo⟩
        rw [hb]
        exact .fall hd hh h1
      · rw [if_neg hb] at h
        obtain ⟨t, ht, he⟩ := Option.map_eq_some_iff.1 h
        cases he
        exact ⟨.taken hd hh h1 hb ht, hfo⟩
  · rename_i n2
    obtain ⟨c2, h2, he⟩ := Option.map_eq_some_iff.1 h
    cases he
    obtain ⟨s1, s2⟩ := evmStack_sound hw hd h2
    exact ⟨.seq hd hh n1 n2 s1, s2⟩

/-- The execution of `n` more steps, while the stack has at most `cap` words. -/
def evmRun (cap : Nat) (code : Code) (insts : List InstData) (env : Env F) :
    Nat → Nat × Nat × List Word × List (Obs F) → Option (Nat × Nat × List Word × List (Obs F))
  | 0, s => some s
  | n + 1, (k, i, c, tr) =>
    match insts[i]? with
    | none => none
    | some d =>
      (evmStep code insts env k i c).bind fun s =>
        if s.2.length ≤ cap then evmRun cap code insts env n (k + 1, s.1, s.2, observed env k i d c ++ tr) else none

theorem evmRun_run {cap : Nat} {code : Code} {env : Env F} {insts : List InstData} {ok : Nat → List Word → Prop}
    (hw : World insts env)
    (hio : ∀ (i : Nat) d, insts[i]? = some d → ¬ Halts d → d.opcode.toNat = 0x56 ∨ d.opcode.toNat = 0x57 →
      d.stackIo = if d.opcode.toNat = 0x57 then (2, 0) else (1, 0)) (hcap : cap ≤ 1024)
    (hok : ∀ i c, c.length ≤ cap → ok i c) (n : Nat) :
    ∀ k i c tr k' i' c' tr', Run code insts env ok k i c tr →
      evmRun cap code insts env n (k, i, c, tr) = some (k', i', c', tr') →
      Run code insts env ok k' i' c' tr' := by
  induction n with
  | zero => intro k i c tr k' i' c' tr' hr h; cases h; exact hr
  | succ n ih =>
    intro k i c tr k' i' c' tr' hr h
    unfold evmRun at h
    cases hd : insts[i]? with
    | none => rw [hd] at h; cases h
    | some d =>
      rw [hd] at h
      dsimp only at h
      obtain ⟨s, h1, h2⟩ := Option.bind_eq_some_iff.1 h
      obtain ⟨i1, c1⟩ := s
      split at h2
      · rename_i hl
        dsimp only at hl
        obtain ⟨s1, s2⟩ := evmStep_sound hw.len hd (hio i d hd) h1
        exact ih _ _ _ _ _ _ _ _ (.step hr hd s1 s2 (by omega) (hok _ _ hl)) h2
      · cases h2

/-- A world that answers zeros and shows the operands of everything but stack instructions and KECCAK256. -/
def demoEnv (insts : List InstData) : Env (List Word) := fun _ i args =>
  match insts[i]? with
  | none => ([], none)
  | some d => (List.replicate d.stackIo.2 0,
      if silent d.opcode.toNat || d.opcode.toNat == 0x20 then none else some args)

theorem demo_world (insts : List InstData) : World insts (demoEnv insts) := by
  constructor
  · intro k i d args hd
    unfold demoEnv
    rw [hd]
    simp
  · intro k i d args hd hs
    unfold demoEnv
    rw [hd]
    simp [hs]
  · intro k i d x y hd ho
    unfold demoEnv
    rw [hd]
    simp [ho]

theorem parse_jump_io (g : UInt8 → BitVec 16) (spec : SpecId) (bytes : List UInt8) (hlen : bytes.length ≤ 2 ^ 31) (i : Nat)
    (d : InstData) (hd : (parse g spec bytes).toProg.insts[i]? = some d) (hh : ¬ Halts d)
    (h : d.opcode.toNat = 0x56 ∨ d.opcode.toNat = 0x57) :
    d.stackIo = if d.opcode.toNat = 0x57 then (2, 0) else (1, 0) := by
  have hji := jump_io (parse_io g spec bytes hlen i d hd (not_halts_off hh))
  rcases h with h | h
  · rw [if_neg (by omega)]; exact hji.1 (toNat_eq (k := 0x56) (by omega) h)
  · rw [if_pos h]; exact hji.2 (toNat_eq (k := 0x57) (by omega) h)

/-- A concrete execution of the parsed bytes in the world `demoEnv`. -/
theorem demo_run {g : UInt8 → BitVec 16} {spec : SpecId} {bytes : List UInt8} {n k i : Nat} {c : List Word}
    {tr : List (Obs (List Word))} (hlen : bytes.length ≤ 2 ^ 31)
    (h : evmRun 64 (parse g spec bytes).toCode (parse g spec bytes).toProg.insts
      (demoEnv (parse g spec bytes).toProg.insts) n (0, 0, [], []) = some (k, i, c, tr)) :
    Run (parse g spec bytes).toCode (parse g spec bytes).toProg.insts (demoEnv (parse g spec bytes).toProg.insts)
      (shallow (parse g spec bytes).toProg.insts) k i c tr :=
  evmRun_run (ok := shallow (parse g spec bytes).toProg.insts) (demo_world _) (parse_jump_io g spec bytes hlen) (by decide)
    (fun _ _ h _ => h) n _ _ _ _ _ _ _ _
    (.start (fun _ => by simp)) h

theorem demo_run_any {g : UInt8 → BitVec 16} {spec : SpecId} {bytes : List UInt8} {n k i : Nat} {c : List Word}
    {tr : List (Obs (List Word))} (hlen : bytes.length ≤ 2 ^ 31)
    (h : evmRun 1024 (parse g spec bytes).toCode (parse g spec bytes).toProg.insts
      (demoEnv (parse g spec bytes).toProg.insts) n (0, 0, [], []) = some (k, i, c, tr)) :
    Run (parse g spec bytes).toCode (parse g spec bytes).toProg.insts (demoEnv (parse g spec bytes).toProg.insts)
      always k i c tr :=
  evmRun_run (ok := always) (demo_world _) (parse_jump_io g spec bytes hlen) (by decide) (fun _ _ _ => trivial) n _ _ _ _ _ _ _ _
    (.start trivial) h

end Verif
