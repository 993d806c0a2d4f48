import Verif.Lemmas.InterpBlock
/-!
# C11–C14: the abstract interpreter
-/

namespace Verif
open Spec



/-! ## C12: joining constants -/

/-- C12: the join admits every word either side admits. -/
theorem C12_join_sound (a b : AbsValue) (w : Word) (h : Admits a w ∨ Admits b w) :
    Admits (a.join b) w := admits_join_of h

/-- C12: unless the result is "unknown" it admits nothing else. -/
theorem C12_join_exact (a b : AbsValue) (h : a.join b ≠ .top) (w : Word) :
    Admits (a.join b) w ↔ Admits a w ∨ Admits b w := admits_join h w

/-- C12: joining is only "unknown" when a side is. -/
theorem C12_join_top (a b : AbsValue) : a.join b = .top ↔ a = .top ∨ b = .top :=
  ⟨join_top, join_of_top a b⟩

/-- C12: sets stay sorted, duplicate free and with at least two elements (so the empty set, for which
the code would panic, never arises). -/
theorem C12_wellformed (a b : AbsValue) (ha : WF a) (hb : WF b) : WF (a.join b) := WF_join ha hb

/-- C12: joining a value with itself changes nothing. -/
theorem C12_idempotent (a : AbsValue) (h : WF a) : a.join a = a := join_self h

/-- Number of joins of a history that change the value. -/
def changes : AbsValue → List AbsValue → Nat
  | _, [] => 0
  | a, b :: bs => (if a.join b = a then 0 else 1) + changes (a.join b) bs

/-- C12: along every history of joins of values whose constants come from `U`, the value changes at
most `|U|` times. -/
theorem C12_bounded_changes (U : List Word) (a : AbsValue) (bs : List AbsValue) (ha : WF a)
    (hb : ∀ b ∈ bs, WF b) (haU : ∀ w, a ≠ .top → Admits a w → w ∈ U)
    (hbU : ∀ b ∈ bs, ∀ w, b ≠ .top → Admits b w → w ∈ U) :
    changes a bs + size U.length a ≤ U.length + 1 ∧ changes a bs ≤ U.length := by
  have key : changes a bs + size U.length a ≤ U.length + 1 := by
    induction bs generalizing a with
    | nil =>
      simp only [changes, size]
      cases hx : a.constList with
      | none => simp
      | some x =>
        have hax : a ≠ .top := fun e => by rw [e] at hx; simp [AbsValue.constList] at hx
        have := length_le_of_nodup (nodup_of_sorted (WF_constList ha hx).2) fun w hw =>
          haU w hax ((admits_constList hx w).2 hw)
        simp only; omega
    | cons b bs ih =>
      have hwb := hb b (by simp)
      have ih := ih (a.join b) (WF_join ha hwb) (fun b' h' => hb b' (by simp [h'])) (by
        intro w hw hadm
        rcases (admits_join hw w).1 hadm with h | h
        · exact haU w (fun e => hw (join_of_top a b (.inl e))) h
        · exact hbU b (by simp) w (fun e => hw (join_of_top a b (.inr e))) h)
        (fun b' h' => hbU b' (by simp [h']))
      simp only [changes]
      split
      · rename_i e; rw [e] at ih ⊢; omega
      · rename_i e
        have := (join_grows ha hwb U haU (hbU b (by simp)) e).1
        omega
  refine ⟨key, ?_⟩
  have : 1 ≤ size U.length a := by
    unfold size
    cases hx : a.constList with
    | none => simp
    | some x =>
      have := List.length_pos_iff.2 (WF_constList ha hx).1
      simp only; omega
  omega

example : (AbsValue.const 5).join (.const 3) = .constSet [3, 5] := by
  simp [AbsValue.join, AbsValue.constList, mergeSets, internSet]

example : (AbsValue.constSet [3, 5]).join (.constSet [4, 5]) = .constSet [3, 4, 5] := by
  simp [AbsValue.join, AbsValue.constList, mergeSets, internSet, AbsValue.asConst]

example : (AbsValue.constSet [3, 5]).join .top = .top := by decide

example : changes (.const 5) [.const 3, .const 5, .const 7, .top, .const 9] = 3 := by
  simp [changes, AbsValue.join, AbsValue.constList, mergeSets, internSet, AbsValue.asConst]

/-! ## C13: joining block states -/

/-- C13: the merged state describes every stack described by either side, whatever the heights. -/
theorem C13_join_sound (s : BlockState) (inc : List AbsValue) (c : List Word)
    (h : AdmitsState s c ∨ AdmitsStack inc c) : AdmitsState (s.join inc).1 c := admitsState_join h

/-- C13: after any sequence of joins, in any order, every incoming state is still covered. -/
theorem C13_history_sound (s : BlockState) (incs : List (List AbsValue)) (c : List Word)
    (h : AdmitsState s c ∨ ∃ inc ∈ incs, AdmitsStack inc c) :
    AdmitsState (incs.foldl (fun s inc => (s.join inc).1) s) c := by
  induction incs generalizing s with
  | nil => simpa using h
  | cons inc incs ih =>
    rw [List.foldl_cons]
    apply ih
    rcases h with h | ⟨x, hx, h⟩
    · exact .inl (admitsState_join (.inl h))
    · rcases List.mem_cons.1 hx with rfl | hx
      · exact .inl (admitsState_join (.inr h))
      · exact .inr ⟨x, hx, h⟩

/-- C13: the tracked depth stays within the limit. -/
theorem C13_depth (s : BlockState) (inc : List AbsValue) (a : List AbsValue)
    (h : (s.join inc).1 = .known a) : a.length ≤ 64 := by
  cases s with
  | bottom =>
    simp only [BlockState.join, BlockState.known.injEq] at h
    subst h; simp [MAX_ABS_STACK_DEPTH]; omega
  | known e =>
    simp only [BlockState.join, BlockState.known.injEq] at h
    subst h; rw [joinPadded_length]; simp only [MAX_ABS_STACK_DEPTH]; omega

/-- C13: the reported "changed" flag is accurate: unchanged means the state is the same, so no work is
lost by not revisiting the block. -/
theorem C13_changed_flag (s : BlockState) (inc : List AbsValue) :
    (s.join inc).2 = false ↔ (s.join inc).1 = s := by
  cases s with
  | bottom => simp [BlockState.join]
  | known e => simp [BlockState.join]

/-- C13: a state that did not change already covered the incoming stacks. -/
theorem C13_unchanged_covers (s : BlockState) (inc : List AbsValue) (c : List Word)
    (h : (s.join inc).2 = false) (hc : AdmitsStack inc c) : AdmitsState s c := by
  have := admitsState_join (s := s) (.inr hc)
  rwa [(C13_changed_flag s inc).1 h] at this

/-- Two paths of different heights: the shared top is kept, the rest is unknown. -/
example : ((BlockState.known [.const 7]).join [.const 7, .const 1]) =
    (.known [.const 7, .top], true) := by decide

example : AdmitsState ((BlockState.known [.const 7]).join [.const 8, .const 1]).1 [8, 1, 2] := by
  apply C13_join_sound; right
  intro i v w hv hw
  match i with
  | 0 => simp at hv hw; subst hv; subst hw; rfl
  | 1 => simp at hv hw; subst hv; subst hw; rfl
  | i + 2 => simp at hv

/-! ## C14: straight-line soundness -/

/-- A block as the interpreter sees it: live instructions with the stack effects of the opcode
table. -/
def BlockOk (l : List (Nat × InstData)) : Prop :=
  ∀ p ∈ l, p.2.flags.deadCode = false ∧ StdIo p.2

/-- C14: if the abstract entry stack describes the concrete one, the abstract exit stack describes
the concrete exit stack. -/
theorem C14_exit_sound (code : Code) (limit : Nat) (l : List (Nat × InstData)) (st : AIState)
    (a a' : List AbsValue) (c c' : List Word) (hok : BlockOk l) (hrun : Exec code l c c')
    (ha : AdmitsStack a c) (h : (interpBlock code limit l st a).1 = some a') :
    AdmitsStack a' c' := by
  induction l generalizing st a c with
  | nil =>
    cases hrun
    have := Option.some.inj h
    subst this; exact ha
  | cons p l ih =>
    cases hrun with
    | cons i d _ _ c1 _ hs hr =>
      simp only [interpBlock] at h
      split at h
      · simp at h
      · rename_i a1 h1
        have hp := hok (i, d) (by simp)
        exact ih _ _ _ (fun p hp => hok p (by simp [hp])) hr
          (interpInst_sound hp.1 hp.2 hs ha h1) h

/-- C14: the operand values recorded for an instruction describe the concrete operands: in every
execution of the block that gets as far as instruction `i` with stack `c1`, operand `n` (counted from
the top) recorded as `v` holds a word admitted by `v`. In particular a recorded constant is the
operand. -/
theorem C14_operands_sound (code : Code) (limit : Nat) (pre post : List (Nat × InstData)) (i : Nat)
    (d : InstData) (st : AIState) (a : List AbsValue) (c c1 : List Word)
    (hok : BlockOk (pre ++ (i, d) :: post)) (hidx : ∀ p ∈ post, p.1 ≠ i)
    (hrun : Exec code pre c c1) (ha : AdmitsStack a c)
    (hreach : (interpBlock code limit pre st a).1 ≠ none) :
    let st' := (interpBlock code limit (pre ++ (i, d) :: post) st a).2
    (∀ (n : Nat) (v : AbsValue) (w : Word), n < d.stackIo.1 → (st'.inputs i).reverse[n]? = some v →
        c1[n]? = some w → Admits v w) ∧
    (∀ (n : Nat) (v w : Word), n < d.stackIo.1 → st'.constOperand i n = some v → c1[n]? = some w →
        w = v) := by
  intro st'
  obtain ⟨a1, h1⟩ := Option.ne_none_iff_exists'.1 hreach
  have ha1 : AdmitsStack a1 c1 :=
    C14_exit_sound code limit pre st a a1 c c1 (fun p hp => hok p (by simp [hp])) hrun ha h1
  have hp := hok (i, d) (by simp)
  have hin : 0 < d.stackIo.1 → st'.inputs i = (a1.take d.stackIo.1).reverse := by
    intro hpos
    have e : st' = (interpBlock code limit ((i, d) :: post)
        (interpBlock code limit pre st a).2 a1).2 := by
      show (interpBlock code limit (pre ++ (i, d) :: post) st a).2 = _
      rw [interpBlock_append h1]
    have hi : (interpInst code limit (interpBlock code limit pre st a).2 i d a1).2.inputs i =
        (a1.take d.stackIo.1).reverse := by
      unfold interpInst
      rw [hp.1]
      simp only [Bool.false_eq_true, if_false]
      have := interpOp_snapshots code limit i (if 0 < d.stackIo.1 then
        { (interpBlock code limit pre st a).2 with inputs := fun j => if j = i then (a1.take d.stackIo.1).reverse else (interpBlock code limit pre st a).2.inputs j }
        else (interpBlock code limit pre st a).2) d a1
      rw [if_pos hpos] at this ⊢
      repeat' split
      all_goals simp [this.1]
    rw [e]
    simp only [interpBlock]
    split
    · exact hi
    · rw [(interpBlock_other hidx).1, hi]
  have key : ∀ (n : Nat) (v : AbsValue) (w : Word), n < d.stackIo.1 →
      (st'.inputs i).reverse[n]? = some v → c1[n]? = some w → Admits v w := by
    intro n v w hn hv hw
    rw [hin (by omega), List.reverse_reverse, List.getElem?_take, if_pos hn] at hv
    exact ha1 n v w hv hw
  refine ⟨key, ?_⟩
  intro n v w hn hv hw
  unfold AIState.constOperand at hv
  rw [Option.bind_eq_some_iff] at hv
  obtain ⟨av, hav, hc⟩ := hv
  have hA := key n av w hn hav hw
  cases av with
  | const x => simp only [AbsValue.asConst, Option.some.injEq] at hc; subst hc; exact hA
  | constSet s => simp [AbsValue.asConst] at hc
  | top => simp [AbsValue.asConst] at hc

/-- C14: the output value recorded for an instruction describes the word it pushes: in every execution
of the block in which instruction `i` takes the stack from `c1` to `c2`, the recorded value admits the
new top of the stack. -/
theorem C14_output_sound (code : Code) (limit : Nat) (pre post : List (Nat × InstData)) (i : Nat)
    (d : InstData) (st : AIState) (a a2 : List AbsValue) (c c1 c2 : List Word)
    (hok : BlockOk (pre ++ (i, d) :: post)) (hidx : ∀ p ∈ post, p.1 ≠ i)
    (hrun : Exec code (pre ++ [(i, d)]) c c2) (ha : AdmitsStack a c)
    (hreach : (interpBlock code limit (pre ++ [(i, d)]) st a).1 = some a2)
    (hout : 0 < d.stackIo.2) (hswap : isSwapLike d.opcode = false) :
    let st' := (interpBlock code limit (pre ++ (i, d) :: post) st a).2
    (∀ (v : AbsValue) (w : Word), st'.outputs i = some v → c2.head? = some w → Admits v w) ∧
    (∀ v w : Word, st'.constOutput i = some v → c2.head? = some w → w = v) := by
  intro st'
  have ha2 : AdmitsStack a2 c2 := C14_exit_sound code limit _ st a a2 c c2
    (fun p hp => hok p (by simp at hp ⊢; rcases hp with h | h <;> simp [h])) hrun ha hreach
  have hp := hok (i, d) (by simp)
  have h1 : ∃ a1, (interpBlock code limit pre st a).1 = some a1 := by
    cases h : (interpBlock code limit pre st a).1 with
    | some a1 => exact ⟨a1, rfl⟩
    | none =>
      exfalso
      have : ∀ (l m : List (Nat × InstData)) (st : AIState) (a : List AbsValue),
          (interpBlock code limit l st a).1 = none → (interpBlock code limit (l ++ m) st a).1 = none := by
        intro l
        induction l with
        | nil => intro m st a h; simp [interpBlock] at h
        | cons p l ih =>
          intro m st a h
          simp only [interpBlock, List.cons_append] at h ⊢
          split at h
          · rfl
          · exact ih _ _ _ h
      rw [this _ _ _ _ h] at hreach; simp at hreach
  obtain ⟨a1, h1⟩ := h1
  have ho : st'.outputs i = a2.head? := by
    have e : st' = (interpBlock code limit ((i, d) :: post)
        (interpBlock code limit pre st a).2 a1).2 := by
      show (interpBlock code limit (pre ++ (i, d) :: post) st a).2 = _
      rw [interpBlock_append h1]
    rw [interpBlock_append h1] at hreach
    simp only [interpBlock] at hreach
    split at hreach
    · simp at hreach
    · rename_i a2' h2
      have := Option.some.inj hreach
      subst this
      rw [e]
      simp only [interpBlock]
      rw [h2]
      simp only
      rw [(interpBlock_other hidx).2]
      unfold interpInst at h2 ⊢
      rw [hp.1] at h2 ⊢
      simp only [Bool.false_eq_true, if_false] at h2 ⊢
      split at h2
      · simp at h2
      · rename_i s' hs'
        have := Option.some.inj h2
        subst this
        rw [if_pos ⟨hout, by simp [hswap]⟩]
        simp
  have key : ∀ (v : AbsValue) (w : Word), st'.outputs i = some v → c2.head? = some w → Admits v w := by
    intro v w hv hw
    rw [ho, List.head?_eq_getElem?] at hv
    rw [List.head?_eq_getElem?] at hw
    exact ha2 0 v w hv hw
  refine ⟨key, ?_⟩
  intro v w hv hw
  unfold AIState.constOutput at hv
  rw [Option.bind_eq_some_iff] at hv
  obtain ⟨av, hav, hc⟩ := hv
  have hA := key av w hav hw
  cases av with
  | const x => simp only [AbsValue.asConst, Option.some.injEq] at hc; subst hc; exact hA
  | constSet s => simp [AbsValue.asConst] at hc
  | top => simp [AbsValue.asConst] at hc

/-- C14: started with unknown inputs (as the local pass does) the interpreter's results hold for every
entry stack whatsoever. -/
theorem C14_unknown_entry (k : Nat) (c : List Word) : AdmitsStack (List.replicate k .top) c := by
  intro i v w hv _
  rw [List.getElem?_replicate] at hv
  split at hv
  · have := Option.some.inj hv; subst this; trivial
  · simp at hv

/-- PUSH1 2; PUSH1 3; ADD; DUP1. -/
def aiExample : List (Nat × InstData) :=
  [(0, { InstData.mk' op.PUSH1 with stackIo := (0, 1) }),
   (1, { InstData.mk' op.PUSH1 with stackIo := (0, 1) }),
   (2, { InstData.mk' op.ADD with stackIo := (2, 1) }),
   (3, { InstData.mk' op.DUP1 with stackIo := (1, 2) })]

example : (interpBlock aiCode 100000 aiExample {} [.top]).1 = some [.const 5, .const 5, .top] := by
  decide +kernel

example : (interpBlock aiCode 100000 aiExample {} [.top]).2.constOperand 2 0 = some 3 := by
  decide +kernel

example : (interpBlock aiCode 100000 aiExample {} [.top]).2.constOutput 2 = some 5 := by
  decide +kernel

example : BlockOk aiExample := by
  intro p hp
  simp only [aiExample, List.mem_cons, List.not_mem_nil, or_false] at hp
  rcases hp with rfl | rfl | rfl | rfl <;> exact ⟨rfl, fun _ => by decide⟩

example : Exec aiCode aiExample [9] [5, 5, 9] := by
  refine .cons _ _ _ _ [2, 9] _ (.push _ (by decide) (by decide)) ?_
  refine .cons _ _ _ _ [3, 2, 9] _ (.push _ (by decide) (by decide)) ?_
  refine .cons _ _ _ _ [5, 9] _ (.pure [3, 2] [9] 5 (by decide +kernel)) ?_
  refine .cons _ _ _ _ [5, 5, 9] _ (.dup _ 5 (by decide) (by decide) (by rfl)) ?_
  exact .nil _

/-! ## C11: the compile-time gas budget -/

/-- C11: the cost used for the budget is the EVM's gas for the evaluated operation on its operands. -/
theorem C11_cost_exact (o : UInt8) (args : List Word) (harity : args.length = (tableStackIo o).1) :
    constFoldGas o (args.reverse.map .const) = pureGas o.toNat args := by
  have key : ∀ o : UInt8, o ≠ op.EXP →
      constFoldGas o [] = pureGas o.toNat [] := by decide +kernel
  by_cases he : o = op.EXP
  · subst he
    have h2 : args.length = 2 := by rw [harity]; decide
    match args, h2 with
    | [x, e], _ =>
      have e1 : constFoldGas op.EXP ([x, e].reverse.map .const) = some (10 + 50 * byteSize e) := rfl
      have e2 : pureGas op.EXP.toNat [x, e] =
        some (10 + 50 * (((List.range 33).find? fun k => e.toNat < 256 ^ k).getD 33)) := rfl
      rw [e1, e2, byteSize_spec]
  · have h1 : constFoldGas o (args.reverse.map .const) = constFoldGas o [] := by
      unfold constFoldGas
      have : (o == op.EXP) = false := by simpa using he
      simp only [this, Bool.false_eq_true, if_false]
    have h2 : pureGas o.toNat args = pureGas o.toNat [] := by
      unfold pureGas
      have : o.toNat ≠ 0x0a := fun h => he (UInt8.toNat_inj.1 h)
      simp only [this, if_false]
    rw [h1, h2, key o he]

/-- C11 for every limit below `u64::MAX`: whatever blocks are interpreted, in whatever order and from
whatever entry stacks, the total cost of the evaluations performed is exactly the counter and never
exceeds the limit. Missing: the limit `u64::MAX`, where it is false (`C11_budget_fails`). -/
theorem C11_budget_partial (code : Code) (limit : Nat) (hlim : limit < U64_MAX)
    (hist : List (List (Nat × InstData) × List AbsValue)) :
    (runs code limit hist {}).log.sum ≤ limit ∧
    (runs code limit hist {}).gasUsed = (runs code limit hist {}).log.sum := by
  have := runs_inv (code := code) (BudgetInv limit)
    (fun s t h1 h2 h => ⟨by rw [← h1, ← h2]; exact h.1, by rw [← h2]; exact h.2⟩)
    (fun st d inp out a h => tryFold_budget hlim h) hist {} ⟨rfl, Nat.zero_le _⟩
  exact ⟨this.2, this.1⟩

/-- C11: with limit 0 nothing at all is evaluated, for any history. -/
theorem C11_zero (code : Code) (hist : List (List (Nat × InstData) × List AbsValue)) :
    (runs code 0 hist {}).log = [] := by
  refine runs_inv (code := code) (limit := 0) (fun st => st.log = [])
    (fun s t _ h2 h => by rw [← h2]; exact h) (fun st d inp out a h => ?_) hist {} rfl
  unfold tryFold
  rw [if_neg (by omega)]
  exact h

/-- C11: every evaluation with a result is accounted for: a value is produced exactly when its cost is
added to the log, and the cost added is the EVM's. -/
theorem C11_accounted (code : Code) (limit : Nat) (st : AIState) (d : InstData) (args : List Word)
    (r : List AbsValue) (out : Nat) (harity : args.length = (tableStackIo d.opcode).1) :
    let res := tryFold code limit st d args.length out (args.map .const ++ r)
    (∀ w, res.1 = some w → ∃ g, pureGas d.opcode.toNat args = some g ∧ res.2.log = g :: st.log) ∧
    (res.1 = none → res.2 = st) := by
  intro res
  have hargs : ((args.map AbsValue.const ++ r).take args.length).reverse = args.reverse.map .const := by
    rw [List.take_left' (by simp), List.map_reverse]
  have hres : res = tryFold code limit st d args.length out (args.map .const ++ r) := rfl
  unfold tryFold at hres
  rw [hargs] at hres
  simp only [C11_cost_exact d.opcode args harity] at hres
  rw [hres]
  constructor
  · intro w
    split
    · split
      · simp
      · split
        · split
          · rename_i g hg _ _ _
            intro _
            exact ⟨_, ‹_›, rfl⟩
          · simp
        · simp
    · simp
  · repeat' split
    all_goals simp

/-- C11: an evaluation that would exceed the limit is skipped and its result is unknown. -/
theorem C11_over_budget_unknown (code : Code) (limit i : Nat) (st : AIState) (d : InstData)
    (args : List Word) (r : List AbsValue) (g : Nat) (hlim : limit < U64_MAX)
    (hio : d.stackIo = tableStackIo d.opcode)
    (harity : args.length = (tableStackIo d.opcode).1)
    (hg : pureGas d.opcode.toNat args = some g) (hover : limit < st.gasUsed + g) :
    interpOp code limit st i d (args.map .const ++ r) = (some (.top :: r), st) := by
  have hfold : tryFold code limit st d args.length d.stackIo.2 (args.map .const ++ r) = (none, st) := by
    have hargs : ((args.map AbsValue.const ++ r).take args.length).reverse = args.reverse.map .const := by
      rw [List.take_left' (by simp), List.map_reverse]
    unfold tryFold
    rw [hargs]
    simp only [C11_cost_exact d.opcode args harity, hg]
    split
    · rw [if_neg (by omega)]
    · rfl
  have ho : ∀ o : UInt8, (pureGas o.toNat [0, 0]).isSome →
      ¬ (0x5f ≤ o.toNat ∧ o.toNat ≤ 0x9f) ∧ o.toNat ∉ [0xe6, 0xe7, 0xe8] ∧ o.toNat ≠ 0x50 ∧
      (tableStackIo o).2 = 1 := by decide +kernel
  have hs : (pureGas d.opcode.toNat [0, 0]).isSome := by
    clear ho hfold harity
    unfold pureGas at hg ⊢
    repeat' split at hg
    all_goals first | (simp at hg; done) | simp_all
  obtain ⟨h1, h2, h3, h4⟩ := ho _ hs
  rw [interpOp_generic h1 h2 h3, hio, if_neg (by simp; omega), ← harity, ← hio]
  dsimp only
  rw [hfold]
  rw [hio, h4, List.drop_left' (by simp)]
  rfl

/-- C11 is false for the limit `u64::MAX`: the saturating check accepts an evaluation although the
exact total exceeds the limit, and the counter wraps (release) or the compiler panics (debug). -/
theorem C11_budget_fails :
    ∃ hist, U64_MAX < (runs aiCode U64_MAX hist {}).log.sum := by
  -- from any state, `n` ADDs whose total stays below the limit
  have adds : ∀ (n : Nat) (st : AIState), st.gasUsed = st.log.sum → st.log.sum + 3 * n < U64_MAX →
      let st' := runs aiCode U64_MAX (List.replicate n ([(0, addInst)], [.const 1, .const 1])) st
      st'.gasUsed = st'.log.sum ∧ st'.log.sum = st.log.sum + 3 * n := by
    intro n
    induction n with
    | zero => intro st h _; exact ⟨h, rfl⟩
    | succ n ih =>
      intro st h hb
      obtain ⟨h1, h2⟩ := fold_add_step st (by omega)
      have hU : U64_MAX = 2 ^ 64 - 1 := rfl
      have := ih (interpBlock aiCode U64_MAX [(0, addInst)] st [.const 1, .const 1]).2 (by
        rw [h1, h2, List.sum_cons, Nat.mod_eq_of_lt (by omega)]; omega) (by
        rw [h2, List.sum_cons]; omega)
      obtain ⟨h3, h4⟩ := this
      refine ⟨h3, ?_⟩
      show _ = _
      have e : runs aiCode U64_MAX (List.replicate (n + 1) ([(0, addInst)], [.const 1, .const 1])) st =
        runs aiCode U64_MAX (List.replicate n ([(0, addInst)], [.const 1, .const 1]))
          (interpBlock aiCode U64_MAX [(0, addInst)] st [.const 1, .const 1]).2 := rfl
      rw [e, h4, h2, List.sum_cons]; omega
  have hU : U64_MAX = 2 ^ 64 - 1 := rfl
  have hm : (interpBlock aiCode U64_MAX [(0, mulInst)] {} [.const 1, .const 1]).2.gasUsed = 5 ∧
    (interpBlock aiCode U64_MAX [(0, mulInst)] {} [.const 1, .const 1]).2.log = [5] := by
    decide +kernel
  let st1 := (interpBlock aiCode U64_MAX [(0, mulInst)] {} [.const 1, .const 1]).2
  let k := (2 ^ 64 - 7) / 3
  have hk : 3 * k = 2 ^ 64 - 7 := by decide +kernel
  have hs1 : st1.log.sum = 5 := by show List.sum _ = _; rw [hm.2]; rfl
  obtain ⟨h1, h2⟩ := adds k st1 (by rw [hs1]; exact hm.1) (by rw [hs1]; omega)
  have h3 := fold_add_step (runs aiCode U64_MAX (List.replicate k ([(0, addInst)], [.const 1, .const 1]))
    st1) (by rw [h1, h2, hs1]; omega)
  refine ⟨([(0, mulInst)], [.const 1, .const 1]) ::
    (List.replicate k ([(0, addInst)], [.const 1, .const 1]) ++
      [([(0, addInst)], [.const 1, .const 1])]), ?_⟩
  have e : runs aiCode U64_MAX (([(0, mulInst)], [.const 1, .const 1]) ::
    (List.replicate k ([(0, addInst)], [.const 1, .const 1]) ++
      [([(0, addInst)], [.const 1, .const 1])])) {} =
      (interpBlock aiCode U64_MAX [(0, addInst)] (runs aiCode U64_MAX (List.replicate k
        ([(0, addInst)], [.const 1, .const 1])) st1) [.const 1, .const 1]).2 := by
    unfold runs
    rw [List.foldl_cons, List.foldl_append]
    rfl
  rw [e, h3.2, List.sum_cons, h2, hs1]
  omega

example : (runs aiCode 8 [([(0, mulInst)], [.const 1, .const 1]), ([(0, addInst)], [.const 1, .const 1]),
    ([(0, addInst)], [.const 1, .const 1])] {}).log = [3, 5] := by decide +kernel

example : pureGas 0x0a [2, 256] = some 110 := by decide +kernel

example : interpOp aiCode 8 { gasUsed := 6 } 0 addInst [.const 1, .const 1, .const 9] =
    (some [.top, .const 9], { gasUsed := 6 }) :=
  C11_over_budget_unknown aiCode 8 0 { gasUsed := 6 } addInst [1, 1] [.const 9] 3 (by decide +kernel) rfl
    (by decide) (by decide) (by decide)

end Verif
