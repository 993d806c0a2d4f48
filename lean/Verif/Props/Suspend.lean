import Verif.Lemmas.SuspendPoint
import Verif.Props.Whole
/-!
# C58: compiled code that suspends at calls and is resumed does what the EVM does

A compiled function returns to its caller at every CALL and CREATE instruction and is called again with the result.
`Compiled.frame m` executes `m` steps of a frame, with the calls of the function, its own stack memory (holding anything
at first and again after every call), the copies from and to the caller's stack, and the resume points.
-/

namespace Verif
open Spec
variable {F : Type}

/-- The same stack memory, stack length and events. -/
structure Alike (cx cx' : SCx (Option F)) : Prop where
  mem : cx.mem = cx'.mem
  len : cx.lenVar = cx'.lenVar
  trace : cx.trace = cx'.trace

/-- Two ends of executions that agree. -/
inductive SameEnd : COut F → COut F → Prop
  | halted {i : Nat} {cx cx' : SCx (Option F)} : Alike cx cx' → SameEnd (.halted i cx) (.halted i cx')
  | invalid {cx cx' : SCx (Option F)} : Alike cx cx' → SameEnd (.invalidJump cx) (.invalidJump cx')
  | stack {f : StackFail} {cx cx' : SCx (Option F)} : Alike cx cx' → SameEnd (.stackError f cx) (.stackError f cx')
  | immediate {i : Nat} {cx cx' : SCx (Option F)} : Alike cx cx' → SameEnd (.badImmediate i cx) (.badImmediate i cx')
  | panic : SameEnd .panic .panic

theorem alike_of {cx cx' : SCx (Option F)} (h : cx.core = cx'.core) : Alike cx cx' := by
  have h1 := congrArg (fun c : SCx (Option F) => c.mem) h
  have h2 := congrArg (fun c : SCx (Option F) => c.lenVar) h
  exact ⟨h1, h2, core_trace h⟩

theorem sameEnd_of {a b : COut F} (h : a.core = b.core) (hb : b.final = true) : SameEnd a b := by
  cases b with
  | running k i cx => cases hb
  | halted i cx => cases a <;> simp only [COut.core, reduceCtorEq, COut.halted.injEq] at h; rw [h.1]; exact .halted (alike_of h.2)
  | invalidJump cx => cases a <;> simp only [COut.core, reduceCtorEq, COut.invalidJump.injEq] at h; exact .invalid (alike_of h)
  | stackError f cx => cases a <;> simp only [COut.core, reduceCtorEq, COut.stackError.injEq] at h; rw [h.1]; exact .stack (alike_of h.2)
  | badImmediate i cx => cases a <;> simp only [COut.core, reduceCtorEq, COut.badImmediate.injEq] at h; rw [h.1]; exact .immediate (alike_of h.2)
  | panic => cases a <;> simp only [COut.core, reduceCtorEq] at h; exact .panic

section frames
variable {g : UInt8 → BitVec 16} {spec : SpecId} {limit : Nat} {bytes : List UInt8} {o : WOpts} {C : Compiled}
  (hC : compileBytes o g spec limit bytes = some C) (hlen : bytes.length ≤ 2 ^ 31)
  (inspect : Bool) (env : Env F) (junk : Nat → Int → Word) (fresh buf : Int → Word)
include hC hlen

/-- C58, ends: a frame that suspends and is resumed ends as the program does in which calls are single steps
(`Compiled.run`, the program of C54), with the same stack, events and outcome. -/
theorem C58_end {m : Nat} {out : COut F} (h : C.frame inspect env junk fresh buf m = .done out) :
    ∃ n, SameEnd (C.run env junk (if inspect then buf else fresh) n) out := by
  obtain ⟨G, _⟩ := goodC_of hC hlen
  obtain ⟨n, hn⟩ := G.layout.frame (inspect := inspect) (env := env) (junk := junk) fresh buf m
  rw [h] at hn
  exact ⟨n, sameEnd_of hn.2 hn.1⟩

/-- C58, ends, the other direction: where that program ends, the frame does. -/
theorem C58_ends {n : Nat} (h : ∀ k i cx, C.run env junk (if inspect then buf else fresh) n ≠ .running k i cx) :
    ∃ m out, C.frame inspect env junk fresh buf m = .done out ∧
      SameEnd (C.run env junk (if inspect then buf else fresh) n) out := by
  obtain ⟨G, _⟩ := goodC_of hC hlen
  obtain ⟨m, hm⟩ := G.layout.reaches (inspect := inspect) (env := env) (junk := junk) fresh buf (n + 1)
  have hf : (C.run env junk (if inspect then buf else fresh) n).final = true := by
    revert h
    generalize C.run env junk (if inspect then buf else fresh) n = q
    intro h
    cases q with
    | running k i cx => exact absurd rfl (h k i cx)
    | _ => rfl
  have hrun := run_final hf 1
  have hno : ∀ r k i cx, ¬ AtStart C env junk (if inspect then buf else fresh) (n + 1) r k i cx := by
    intro r k i cx hA
    obtain ⟨⟨cxb, h1, _⟩, _⟩ := hA
    rw [hrun] at h1
    exact h _ _ _ h1
  have hno2 : ∀ k0 b ss k i cx, ¬ Stage C env junk (if inspect then buf else fresh) (n + 1) k0 b ss k i cx := by
    intro k0 b ss k i cx hS
    obtain ⟨cxb, h1, _⟩ := hS.run
    rw [hrun] at h1
    exact h _ _ _ h1
  cases hfr : C.frame inspect env junk fresh buf m with
  | done out =>
    rw [hfr] at hm
    have h2 := hm.2
    rw [hrun] at h2
    exact ⟨m, out, hfr, sameEnd_of h2 hm.1⟩
  | inside r c k i cx =>
    rw [hfr] at hm
    rcases hm with hm | ⟨_, k0, b, ss, hm⟩
    · exact absurd hm (hno _ _ _ _)
    · exact absurd hm (hno2 _ _ _ _ _ _)
  | outside c k w tr =>
    rw [hfr] at hm
    obtain ⟨c', i, cx, _, hm | ⟨k0, b, ss, hm⟩⟩ := hm
    · exact absurd hm (hno _ _ _ _)
    · exact absurd hm (hno2 _ _ _ _ _ _)

/-- C58, resuming: whenever a frame is suspended, the resume point left in the caller's program counter is not zero and
within the bytecode, the function accepts it, and goes on at the instruction after an enabled CALL or CREATE, which
exists, with the caller's stack and the pushed word on top. -/
theorem C58_resume {m k : Nat} {c : Caller} {w : Word} {tr : List (Ev (Option F))}
    (h : C.frame inspect env junk fresh buf m = .outside c k w tr) :
    1 ≤ c.pc ∧ c.pc ≤ bytes.length ∧
    ∃ i d c' cx, (parse g spec bytes).toProg.insts[i]? = some d ∧ ¬ Halts d ∧ callOp d.opcode.toNat = true ∧
      i + 1 < (parse g spec bytes).toProg.insts.length ∧
      C.frame inspect env junk fresh buf (m + 1) = .inside true c' k (i + 1) cx ∧
      cx.lenVar = c.len + 1 ∧ cx.mem c.len = w ∧ (∀ a, a < c.len → cx.mem a = c.buf a) ∧ cx.trace = tr := by
  obtain ⟨G, _⟩ := goodC_of hC hlen
  cases m with
  | zero => rw [frame_zero] at h; cases h
  | succ m =>
    have h0 := h
    change C.frameStep inspect env junk (C.frame inspect env junk fresh buf m) = _ at h0
    obtain ⟨b, hb, x, hx, hs, c0, p, cx, ws, hp, rfl, hw, rfl⟩ := outside_from h0
    have hpl := G.point_le hp
    have hbl := parse_len g spec bytes
    refine ⟨hpl.1, by show p ≤ bytes.length; omega, ?_⟩
    have hin : x.1 ∈ C.suspending :=
      List.mem_map_of_mem (List.mem_filter.2 ⟨List.mem_flatMap.2 ⟨b, hb, hx⟩, hs⟩)
    obtain ⟨d, hd, hnh, hms, hlt⟩ := G.suspending_at hin
    have hent := enter_back (inspect := inspect) (c := c0) (cx := cx) (w := w) (ws := ws) (j := junk (k - 1))
      ⟨b, hb, hx⟩ hs hp hw
    refine ⟨x.1, d, (c0.save inspect p cx).push (junk (k - 1)) w, (SCx.back (junk (k - 1)) cx ws).core, hd, hnh, ?_, hlt,
      ?_, rfl, ?_, ?_, ?_⟩
    · unfold InstData.maySuspend at hms
      simp only [List.contains_iff_mem, List.mem_cons, List.not_mem_nil, or_false] at hms
      rcases hms with h | h | h | h | h | h <;> rw [h] <;> decide
    · show C.frameStep inspect env junk (C.frame inspect env junk fresh buf (m + 1)) = _
      rw [h]
      unfold Compiled.frameStep
      dsimp only
      rw [hent]
    · show (if cx.lenVar = cx.lenVar then ws.headD 0 else _) = w
      rw [if_pos rfl, hw]
    · intro a ha
      have ha : a < cx.lenVar := ha
      show (if a = cx.lenVar then ws.headD 0 else if cx.lenVar < a then junk (k - 1) a else cx.mem a) =
        (if inspect then cx.mem else fun a => if a < cx.lenVar then cx.mem a else c0.buf a) a
      rw [if_neg (by omega), if_neg (by omega)]
      cases inspect with
      | true => rfl
      | false => exact (if_pos ha).symm
    · have hst : (c0.save inspect p cx).stack = (List.range cx.lenVar.toNat).map fun (k : Nat) => cx.mem k := by
        unfold Caller.stack
        apply List.map_congr_left
        intro a ha
        have ha : a < cx.lenVar.toNat := List.mem_range.1 ha
        show (if inspect then cx.mem else fun a => if a < cx.lenVar then cx.mem a else c0.buf a) a = cx.mem a
        cases inspect with
        | true => rfl
        | false => exact if_pos (by omega)
      rw [hst]
      rfl

end frames

/-! ## The EVM -/

/-- The frame ends at the instruction that ends the EVM's execution, with the same observations, and the caller has been
left with the EVM's stack at each call. -/
def FrameEndsAlike (C : Compiled) (o : WOpts) (env : Env F) (junk : Nat → Int → Word) (fresh buf : Int → Word) (k i : Nat)
    (d : InstData) (c : List Word) (tr : List (Obs F)) : Prop :=
  ∃ m cx, C.frame o.inspect env junk fresh buf m = .done (.halted i cx) ∧ shown cx.trace = observed env k i d c ++ tr ∧
    cx.lenVar = (c.drop d.stackIo.1).length ∧
    ((o.dse = true → o.inspect = true) → Holds cx (c.drop d.stackIo.1)) ∧
    C.left o.inspect env junk fresh buf m = called (observed env k i d c ++ tr)

/-- C58, full statement for executions that halt. -/
def C58_halts : Prop :=
  ∀ (F : Type) (g : UInt8 → BitVec 16) (spec : SpecId) (limit : Nat) (bytes : List UInt8) (o : WOpts) (C : Compiled),
    compileBytes o g spec limit bytes = some C → bytes.length ≤ 2 ^ 31 →
    ∀ (env : Env F) (junk : Nat → Int → Word) (fresh buf : Int → Word), World (parse g spec bytes).toProg.insts env →
    ∀ k i c tr d, Run (parse g spec bytes).toCode (parse g spec bytes).toProg.insts env always k i c tr →
      (parse g spec bytes).toProg.insts[i]? = some d → Halts d → d.stackIo.1 ≤ c.length →
      FrameEndsAlike C o env junk fresh buf k i d c tr

section forward
variable {g : UInt8 → BitVec 16} {spec : SpecId} {limit : Nat} {bytes : List UInt8} {o : WOpts} {C : Compiled}
  (hC : compileBytes o g spec limit bytes = some C) (hlen : bytes.length ≤ 2 ^ 31)
  {env : Env F} (junk : Nat → Int → Word) (fresh buf : Int → Word) (hw : World (parse g spec bytes).toProg.insts env)
  {k i : Nat} {c : List Word} {tr : List (Obs F)} {d : InstData}
  (hr : Run (parse g spec bytes).toCode (parse g spec bytes).toProg.insts env
    (shallow (parse g spec bytes).toProg.insts) k i c tr)
include hC hlen hw hr

/-- C58, halting: where the EVM halts, so does the frame, with the same observations; and at each suspension the caller
has been left with the stack the EVM has at that call. For executions with at most 64 words on the stack at a JUMPDEST
or right after a JUMPI (as C54). -/
theorem C58_halts_partial (hd : (parse g spec bytes).toProg.insts[i]? = some d) (hh : Halts d)
    (hin : d.stackIo.1 ≤ c.length) : FrameEndsAlike C o env junk fresh buf k i d c tr := by
  obtain ⟨n, cx, h1, h2, h3, h4⟩ := C54_halts_partial hC hlen junk (if o.inspect then buf else fresh) hw hr hd hh hin
  obtain ⟨m, out, h5, h6⟩ := C58_ends hC hlen o.inspect env junk fresh buf (n := n) (fun _ _ _ h => by rw [h1] at h; cases h)
  rw [h1] at h6
  cases h6 with
  | halted hal =>
    rename_i cx'
    refine ⟨m, cx', h5, by rw [← hal.trace]; exact h2, by rw [← hal.len]; exact h3, fun h => ?_, ?_⟩
    · have := h4 h
      unfold Holds at this ⊢
      rw [← hal.len, ← hal.mem]
      exact this
    · rw [← h2, called_shown, hal.trace]
      exact (frame_calls fresh buf m cx'.trace (by rw [h5]; rfl)).symm

/-- C58, invalid jumps: where the EVM fails with an invalid jump, so does the frame. -/
theorem C58_invalid_partial (hd : (parse g spec bytes).toProg.insts[i]? = some d) (hh : ¬ Halts d)
    (hj : d.opcode.toNat = 0x56 ∨ d.opcode.toNat = 0x57) (hin : d.stackIo.1 ≤ c.length)
    (hn : evmNext (parse g spec bytes).toCode i d c = none) :
    ∃ m cx, C.frame o.inspect env junk fresh buf m = .done (.invalidJump cx) ∧ shown cx.trace = tr ∧
      C.left o.inspect env junk fresh buf m = called tr := by
  obtain ⟨n, cx, h1, h2⟩ := C54_invalid_partial hC hlen junk (if o.inspect then buf else fresh) hw hr hd hh hj hin hn
  obtain ⟨m, out, h5, h6⟩ := C58_ends hC hlen o.inspect env junk fresh buf (n := n) (fun _ _ _ h => by rw [h1] at h; cases h)
  rw [h1] at h6
  cases h6 with
  | invalid hal =>
    rename_i cx'
    refine ⟨m, cx', h5, by rw [← hal.trace]; exact h2, ?_⟩
    rw [← h2, called_shown, hal.trace]
    exact (frame_calls fresh buf m cx'.trace (by rw [h5]; rfl)).symm

/-- C58, stack errors: where the EVM fails with a stack error, so does the frame, with an underflow if the EVM does,
having done nothing that the EVM has not done. For blocks whose heights span at most 32767. -/
theorem C58_stack_partial (hd : (parse g spec bytes).toProg.insts[i]? = some d)
    (hfit : ∀ b ∈ C.prog.blocks,
      highest ((((parse g spec bytes).toProg.insts.drop b.1).take (b.2 - b.1)).map (·.stackIo)) 0 -
        lowest ((((parse g spec bytes).toProg.insts.drop b.1).take (b.2 - b.1)).map (·.stackIo)) 0 ≤ 32767)
    (hf : c.length < d.stackIo.1 ∨ 1024 < c.length - d.stackIo.1 + d.stackIo.2) :
    ∃ m f cx, C.frame o.inspect env junk fresh buf m = .done (.stackError f cx) ∧ shown cx.trace <:+ tr ∧
      (c.length < d.stackIo.1 → f = .underflow) := by
  obtain ⟨n, f, cx, h1, h2, h3⟩ := C54_stack_partial hC hlen junk (if o.inspect then buf else fresh) hw hr hd hfit hf
  obtain ⟨m, out, h5, h6⟩ := C58_ends hC hlen o.inspect env junk fresh buf (n := n) (fun _ _ _ h => by rw [h1] at h; cases h)
  rw [h1] at h6
  cases h6 with
  | stack hal => exact ⟨m, f, _, h5, by rw [← hal.trace]; exact h2, h3⟩

end forward

theorem Outcome.alike {code : Code} {env : Env F} {k i : Nat} {d : InstData} {c : List Word} {tr : List (Obs F)}
    {a b : COut F} (h : Outcome code env k i d c tr a) (hs : SameEnd a b) : Outcome code env k i d c tr b := by
  cases hs with
  | halted hal =>
    cases h with
    | halted h1 h2 h3 h4 => exact .halted h1 h2 (by rw [← hal.trace]; exact h3) (by rw [← hal.len]; exact h4)
  | invalid hal =>
    cases h with
    | invalid h1 h2 h3 h4 h5 => exact .invalid h1 h2 h3 h4 (by rw [← hal.trace]; exact h5)
  | stack hal =>
    cases h with
    | stack h1 h2 h3 => exact .stack h1 (by rw [← hal.trace]; exact h2) h3
    | early h1 h2 => exact .early h1 (by rw [← hal.trace]; exact h2)
  | immediate hal =>
    cases h with
    | immediate h1 h2 => exact .immediate h1 (by rw [← hal.trace]; exact h2)
  | panic => exact h

/-- C58, the other direction: if a frame has ended, so does an execution of the EVM, in the same way — or the EVM's
execution takes more than 64 words to a JUMPDEST or behind a JUMPI. In particular the function is never called
with a resume point it does not know. -/
theorem C58_outcome_partial {g : UInt8 → BitVec 16} {spec : SpecId} {limit : Nat} {bytes : List UInt8} {o : WOpts}
    {C : Compiled} (hC : compileBytes o g spec limit bytes = some C) (hlen : bytes.length ≤ 2 ^ 31)
    {env : Env F} (junk : Nat → Int → Word) (fresh buf : Int → Word) (hw : World (parse g spec bytes).toProg.insts env)
    (hfit : ∀ b ∈ C.prog.blocks,
      highest ((((parse g spec bytes).toProg.insts.drop b.1).take (b.2 - b.1)).map (·.stackIo)) 0 -
        lowest ((((parse g spec bytes).toProg.insts.drop b.1).take (b.2 - b.1)).map (·.stackIo)) 0 ≤ 32767)
    {m : Nat} {out : COut F} (hm : C.frame o.inspect env junk fresh buf m = .done out) :
    ∃ k i c tr d, Run (parse g spec bytes).toCode (parse g spec bytes).toProg.insts env
        (shallow (parse g spec bytes).toProg.insts) k i c tr ∧
      (parse g spec bytes).toProg.insts[i]? = some d ∧
      (Outcome (parse g spec bytes).toCode env k i d c tr out ∨
       ∃ i' c', Step (parse g spec bytes).toCode (parse g spec bytes).toProg.insts i c i' c' ∧
         Follows (parse g spec bytes).toCode env k i d c c' ∧
         ¬ shallow (parse g spec bytes).toProg.insts i' c') := by
  obtain ⟨n, hn⟩ := C58_end hC hlen o.inspect env junk fresh buf hm
  obtain ⟨k, i, c, tr, d, hr, hd, h⟩ := C54_outcome_partial hC hlen junk (if o.inspect then buf else fresh) hw hfit (n := n)
    (fun k i cx h => by rw [h] at hn; cases hn)
  refine ⟨k, i, c, tr, d, hr, hd, ?_⟩
  rcases h with h | h
  · exact .inl (h.alike hn)
  · exact .inr h

/-- Without the bound of 64 words the claim is false, as that of C54 is: a frame that halts where the EVM does would make
the program do so. -/
theorem C58_halts_fails : ¬ C58_halts := by
  intro H
  refine C54_halts_fails ?_
  intro F g spec limit bytes o C hC hlen env clob mem hw k i c tr d hr hd hh hin
  obtain ⟨m, cx, h1, h2, h3, h4, _⟩ := H F g spec limit bytes o C hC hlen env clob mem mem hw k i c tr d hr hd hh hin
  obtain ⟨n, hn⟩ := C58_end hC hlen o.inspect env clob mem mem h1
  rw [ite_self] at hn
  generalize hq : C.run env clob mem n = q at hn
  cases hn with
  | halted hal =>
    rename_i cx'
    refine ⟨n, cx', hq, by rw [hal.trace]; exact h2, by rw [hal.len]; exact h3, fun h => ?_⟩
    have := h4 h
    unfold Holds at this ⊢
    rw [hal.len, hal.mem]
    exact this

/-! ## A concrete program -/

/-- `PUSH1 7; PUSH0 (seven times); CALL; PUSH0 (three times); CREATE; ADD; SSTORE; STOP`. -/
def callCreate : List UInt8 :=
  [0x60, 0x07, 0x5f, 0x5f, 0x5f, 0x5f, 0x5f, 0x5f, 0x5f, 0xf1, 0x5f, 0x5f, 0x5f, 0xf0, 0x01, 0x55, 0x00]

/-- The EVM's execution of `callCreate` up to the STOP: the call is made above 7, the creation above 0 (the answer
to the call) and 7, and both answers are zero, so that 7 is stored at 0. -/
theorem callCreate_run : Run (parse (fun _ => 3) SpecId.CANCUN callCreate).toCode
    (parse (fun _ => 3) SpecId.CANCUN callCreate).toProg.insts (demoEnv (parse (fun _ => 3) SpecId.CANCUN callCreate).toProg.insts)
    (shallow (parse (fun _ => 3) SpecId.CANCUN callCreate).toProg.insts) 15 15 []
    [.effect [0, 7], .called [7, 0], .effect [0, 0, 0], .called [7], .effect [0, 0, 0, 0, 0, 0, 0]] :=
  demo_run (n := 15) (by decide) (by decide +kernel)

/-- With dead-store elimination and garbage in every memory, `callCreate` stores 7, having left its caller twice,
with `[7]` and with `[7, 0]` on the stack. -/
example : ∃ C m cx, compileBytes { dse := true, inspect := false } (fun _ => 3) SpecId.CANCUN 1000 callCreate = some C ∧
    C.frame false (demoEnv (parse (fun _ => 3) SpecId.CANCUN callCreate).toProg.insts) (fun _ _ => 7) (fun _ => 9) (fun _ => 8) m =
      .done (.halted 15 cx) ∧ (shown cx.trace).head? = some (.effect [0, 7]) ∧
    C.left false (demoEnv (parse (fun _ => 3) SpecId.CANCUN callCreate).toProg.insts) (fun _ _ => 7) (fun _ => 9) (fun _ => 8) m =
      [[7, 0], [7]] := by
  obtain ⟨C, hC⟩ := compiles (o := { dse := true, inspect := false }) (g := fun _ => 3) (spec := SpecId.CANCUN)
    (limit := 1000) (bytes := callCreate) (by decide +kernel)
  have hd : (parse (fun _ => 3) SpecId.CANCUN callCreate).toProg.insts[15]?.map
      (fun d => (d.opcode, d.stackIo, observed (demoEnv (parse (fun _ => 3) SpecId.CANCUN callCreate).toProg.insts) 15 15 d [])) =
      some (0, (0, 0), []) := by decide +kernel
  obtain ⟨d, hd, he⟩ := Option.map_eq_some_iff.1 hd
  simp only [Prod.mk.injEq] at he
  obtain ⟨m, cx, h1, h2, _, _, h5⟩ := C58_halts_partial hC (by decide) (fun _ _ => 7) (fun _ => 9) (fun _ => 8) (demo_world _)
    callCreate_run hd (.inr (.inr (by rw [he.1]; decide))) (by rw [show d.stackIo = (0, 0) from he.2.1]; decide)
  refine ⟨C, m, cx, hC, h1, ?_, ?_⟩
  · rw [h2, he.2.2]; rfl
  · refine Eq.trans h5 ?_
    rw [he.2.2]
    rfl

/-- The frame of `callCreate` is suspended after its first step, with resume point 1 in the caller's program counter, and
after its third with resume point 2. -/
example : (compileBytes { dse := true, inspect := false } (fun _ => 3) SpecId.CANCUN 1000 callCreate).map (fun C =>
    [1, 3].map fun m => match C.frame false (demoEnv (parse (fun _ => 3) SpecId.CANCUN callCreate).toProg.insts)
        (fun _ _ => 7) (fun _ => 9) (fun _ => 8) m with
      | .outside c k w _ => some ([c.pc, k], w :: c.stack)
      | _ => none) =
    some [some ([1, 9], [0, 7]), some ([2, 13], [0, 7, 0])] := by decide +kernel

end Verif
