import Verif.Lemmas.Attrs
/-!
# C63: what is declared about the builtins, and what they do with the stack
-/

namespace Verif.Attrs

open Spec

/-- The layout of the real context on a 64-bit target. -/
def layout64 : Layout := ⟨208, 8, 8⟩

set_option maxRecDepth 20000

/-- Access through parameter `p` of kind `k`, as far as it does not depend on the layout. -/
private def kindOk (b : Bi) (p : Nat) (k : Kind) (t : List Acc) (o : Out) : Bool :=
  let io := tableStackIo b.op
  match k with
  | .plain => true
  | .ecx => t.all fun | .ptr q w _ => q != p || w == 0 | _ => true
  | .ecxRo => t.all fun | .ptr q w x => q != p || (w == 0 && !x) | _ => true
  | .spDyn => true
  | .sp =>
    (t.all fun | .ptr q w _ => q != p || decide (32 * (w + 1) ≤ 32 * max io.1 io.2) | _ => true) &&
    (if io.2 = 0 then t.all fun | .ptr q _ x => q != p || !x | _ => true else true) &&
    (if io.1 = 0 ∧ b ≠ .sloadC then t.all fun | .ptr q _ x => q != p || x | _ => true else true) &&
    (if io.1 = 0 then (List.range io.2).all fun w =>
      freshB p w t && (o != .returned || t.contains (.ptr p w true)) else true)

private def paramsOk (b : Bi) (t : List Acc) (o : Out) : Bool :=
  (List.range b.params.length).all fun p =>
    match b.params[p]? with | some k => kindOk b p k t o | none => true

private theorem paramsOk_all : everyRun paramsOk = true := by decide +kernel

private theorem kindOk_of {b n t o p k} (ha : ArgOk b n) (hr : Body.Runs (b.body n) t o)
    (hk : b.params[p]? = some k) : kindOk b p k t o = true := by
  have h := everyRun_sound paramsOk_all ha hr
  simp only [paramsOk, List.all_eq_true, List.mem_range] at h
  have hp : p < b.params.length := by
    rcases Nat.lt_or_ge p b.params.length with h | h
    · exact h
    · rw [List.getElem?_eq_none h] at hk; cases hk
  have := h p hp
  rw [hk] at this
  exact this

/-- **C63.** Every attribute declared for a parameter of a builtin is honoured by every run of it:
a parameter declared read-only is never written, one declared write-only never read, all accesses
lie within the declared size, and a parameter declared initialised is filled by every run that
returns and not read before. Not included: write-only on the slot of the constant-key storage load
(`C63_writeonly_fails`); for that one `C63_initialises` still holds. -/
theorem C63_params_partial (L : Layout) (hL : 168 ≤ L.ctxSize) (b : Bi) (n : Nat) (ha : ArgOk b n)
    {t o} (hr : Body.Runs (b.body n) t o) {p as a} (hp : (paramAttrs L b)[p]? = some as)
    (hm : a ∈ as) (hx : ¬ (b = .sloadC ∧ a = .writeOnly)) : Honours a p t o := by
  simp only [paramAttrs, List.getElem?_map, Option.map_eq_some_iff] at hp
  obtain ⟨k, hk, rfl⟩ := hp
  have h := kindOk_of ha hr hk
  cases k with
  | plain => simp [kindAttrs] at hm; subst hm; trivial
  | spDyn =>
    simp [kindAttrs, sizeAndAlign] at hm
    rcases hm with rfl | rfl | rfl | rfl | rfl <;> trivial
  | ecx =>
    simp only [kindOk, List.all_eq_true] at h
    simp [kindAttrs, sizeAndAlign] at hm
    rcases hm with rfl | rfl | rfl | rfl | rfl | rfl <;> try trivial
    intro w x hw
    have := h _ hw
    simp at this
    omega
  | ecxRo =>
    simp only [kindOk, List.all_eq_true] at h
    simp [kindAttrs, sizeAndAlign] at hm
    rcases hm with rfl | rfl | rfl | rfl | rfl | rfl <;> try trivial
    · intro w x hw
      have := h _ hw
      simp at this
      omega
    · intro w hw
      have := h _ hw
      simp at this
  | sp =>
    simp only [kindOk, Bool.and_eq_true] at h
    obtain ⟨⟨⟨h1, h2⟩, h3⟩, h4⟩ := h
    simp only [List.all_eq_true] at h1
    simp only [kindAttrs, sizeAndAlign, List.append_nil, List.mem_append, List.mem_cons,
      List.not_mem_nil, or_false] at hm
    rcases hm with ((rfl | rfl | rfl | rfl) | rfl) | hm <;> try trivial
    · intro w x hw
      have := h1 _ hw
      simpa using this
    · generalize hio : tableStackIo b.op = io at h1 h2 h3 h4 hm
      obtain ⟨i, u⟩ := io
      cases i with
      | zero =>
        cases u with
        | zero =>
          simp [spAccess] at hm
          subst hm
          intro w x hw
          have := h1 _ hw
          simp at this
        | succ u =>
          simp [spAccess] at hm
          rcases hm with rfl | rfl | rfl
          · trivial
          · have hb : b ≠ .sloadC := fun e => hx ⟨e, rfl⟩
            rw [if_pos ⟨rfl, hb⟩] at h3
            simp only [List.all_eq_true] at h3
            intro w hw
            have := h3 _ hw
            simp at this
          · rw [if_pos rfl] at h4
            simp only [List.all_eq_true, List.mem_range, Bool.and_eq_true, Bool.or_eq_true] at h4
            intro w hw
            have := h4 w (by omega)
            refine ⟨freshB_iff p w t this.1, fun e => ?_⟩
            rcases this.2 with h | h
            · simp [e] at h
            · simpa using h
      | succ i =>
        cases u with
        | zero =>
          simp [spAccess] at hm
          subst hm
          rw [if_pos rfl] at h2
          simp only [List.all_eq_true] at h2
          intro w hw
          have := h2 _ hw
          simp at this
        | succ u => simp [spAccess] at hm; subst hm; trivial

/-- Exponentiation: the context is written, the two operands are read and the result written. -/
example : ∃ t, Body.Runs (Bi.exp.body 0) t .returned ∧ .ptr 1 1 false ∈ t ∧ .ptr 1 0 true ∈ t ∧
    .ptr 0 0 true ∈ t := by
  refine ⟨_, .act (.act (.act (.right (.act (.act (.act (.done _))))))), ?_, ?_, ?_⟩ <;> decide

/-- **C63.** A result slot declared initialised is written by every returning run and its old
content is never looked at, for every builtin without exception. -/
theorem C63_initialises (L : Layout) (hL : 168 ≤ L.ctxSize) (b : Bi) (n : Nat) (ha : ArgOk b n)
    {t o} (hr : Body.Runs (b.body n) t o) {p as m} (hp : (paramAttrs L b)[p]? = some as)
    (hm : .initializes m ∈ as) : Honours (.initializes m) p t o :=
  C63_params_partial L hL b n ha hr hp hm (by simp)

example : .initializes 32 ∈ ((paramAttrs layout64 .sloadC)[1]?).getD [] := by decide

/-- **C63.** A builtin declared not to return never returns. -/
theorem C63_noreturn (L : Layout) (b : Bi) (n : Nat) (ha : ArgOk b n) {t o}
    (hr : Body.Runs (b.body n) t o) (hm : .noReturn ∈ fnAttrs L b) : HonoursFn .noReturn t o := by
  have h : everyRun (fun b _ o => !b.attrs.contains .noReturn || o != .returned) = true := by
    decide +kernel
  have h := everyRun_sound h ha hr
  have hb : .noReturn ∈ b.attrs := by
    simp only [fnAttrs, List.mem_append] at hm
    rcases hm with (hm | hm) | hm
    · exact hm
    · simp at hm
    · split at hm <;> simp at hm
  simp only [Bool.or_eq_true, Bool.not_eq_true'] at h
  rcases h with h | h
  · rw [List.contains_eq_mem] at h; simp [hb] at h
  · simpa [HonoursFn] using h

example : .noReturn ∈ fnAttrs layout64 .doReturn ∧
    ∃ t, Body.Runs (Bi.doReturn.body 0) t .left :=
  ⟨by decide, _, .act (.right (.right (.act (.act (.act (.act (.act (.done _))))))))⟩

/-- A builtin with a writable context is never declared to access only its arguments. -/
private theorem argMem_noEcx {L : Layout} {b : Bi} (h : .argMemOnly ∈ fnAttrs L b) :
    .ecx ∉ b.params := by
  intro hk
  have hw : writesEcx L b = true := by
    simp only [writesEcx, paramAttrs, List.any_eq_true, List.mem_map, Bool.and_eq_true, beq_iff_eq]
    exact ⟨_, ⟨_, hk, rfl⟩, ⟨.writable, by simp [kindAttrs], rfl⟩,
      ⟨.dereferenceable L.ctxSize, by simp [kindAttrs, sizeAndAlign], rfl⟩⟩
  simp only [fnAttrs, hw, if_true, List.append_nil, List.mem_append] at h
  rcases h with h | h
  · cases b <;> simp [Bi.attrs] at h
  · simp at h

/-- **C63.** A builtin declared to access only memory behind its arguments (`memory(argmem)`) writes
nothing else on any run that does not abort, and if it has no context parameter it touches nothing
else at all. Missing from the full claim: those with a read-only context do read memory behind
pointers stored in the context (`C63_argmem_fails`). -/
theorem C63_argmem_partial (L : Layout) (b : Bi) (n : Nat) (ha : ArgOk b n) {t o}
    (hr : Body.Runs (b.body n) t o) (hm : .argMemOnly ∈ fnAttrs L b) (ho : o ≠ .aborted) :
    .far true ∉ t ∧ (.ecxRo ∉ b.params → HonoursFn .argMemOnly t o) := by
  have hk := argMem_noEcx hm
  have h : everyRun (fun b t o => b.params.contains .ecx || o == .aborted ||
      (!t.contains (.far true) && (b.params.contains .ecxRo || !t.contains (.far false)))) = true := by
    decide +kernel
  have h := everyRun_sound h ha hr
  simp [hk, ho] at h
  refine ⟨h.1, fun hro x => ?_⟩
  cases x with
  | true => exact h.1
  | false => exact h.2.resolve_left hro

example : .argMemOnly ∈ fnAttrs layout64 .mulmod ∧ .argMemOnly ∈ fnAttrs layout64 .timestamp ∧
    .argMemOnly ∉ fnAttrs layout64 .sload := by decide

/-- **C63.** The full claim about `memory(argmem)` fails: ORIGIN is declared to access only memory
behind its arguments, and asks the host, which is behind a pointer stored in the context. -/
theorem C63_argmem_fails : ∃ b t, .argMemOnly ∈ fnAttrs layout64 b ∧
    Body.Runs (Bi.body 0 b) t .returned ∧ ¬ HonoursFn .argMemOnly t .returned := by
  refine ⟨.origin, _, by decide, .act (.act (.act (.done _))), fun h => h false (by decide)⟩

/-- **C63.** A builtin that does not get the context for writing gives back no memory. Missing from
the full claim: those that may grow the EVM memory (`C63_nofree_fails`). -/
theorem C63_nofree_partial (b : Bi) (n : Nat) (ha : ArgOk b n) {t o}
    (hr : Body.Runs (b.body n) t o) (hk : .ecx ∉ b.params) : HonoursFn .noFree t o := by
  have h : everyRun (fun b t _ => b.params.contains .ecx || !t.contains .free) = true := by
    decide +kernel
  have h := everyRun_sound h ha hr
  simpa [hk, HonoursFn] using h

example : .ecx ∉ Bi.callDataLoad.params ∧ ∃ t o, Body.Runs (Bi.callDataLoad.body 0) t o :=
  ⟨by decide, _, _, .act (.act (.act (.left (.act (.done _)))))⟩

/-- **C63.** Every builtin is declared to free nothing, but growing the memory may move it, which
gives back the old buffer. -/
theorem C63_nofree_fails : ∃ b t, .noFree ∈ fnAttrs layout64 b ∧
    Body.Runs (Bi.body 0 b) t .returned ∧ ¬ HonoursFn .noFree t .returned := by
  refine ⟨.mresize, _, by decide,
    .act (.act (.right (.right (.act (.right (.act (.act (.act (.act (.act (.act (.done _)))))))))))),
    fun h => h (by decide)⟩

/-- **C63.** The constant-key storage load declares its slot write-only, but puts the key there and
reads it back. -/
theorem C63_writeonly_fails : ∃ b t, .writeOnly ∈ ((paramAttrs layout64 b)[1]?).getD [] ∧
    Body.Runs (Bi.body 0 b) t .returned ∧ ¬ Honours .writeOnly 1 t .returned := by
  refine ⟨.sloadC, _, by decide,
    .act (.act (.act (.act (.act (.right (.act (.act (.act (.right (.act (.done _))))))))))),
    fun h => h 0 (by decide)⟩

/-! ## What a builtin does with the stack of its caller -/

private def siteOk (e : UInt8 × Site) : Bool :=
  let b := e.2.builtin
  let io := computeStackIo e.1 none
  let p := if b.params[0]? == some .sp then 0 else 1
  (argsOf b).contains e.2.arg && e.2.depth == io.1 &&
  (b.params[p]? == some .sp || b.params[p]? == some .spDyn) &&
  (List.range b.params.length).all (fun q => q == p || (b.params[q]? != some .sp && b.params[q]? != some .spDyn)) &&
  (b.body e.2.arg).traces.all fun r =>
    (r.1.all fun
      | .ptr q w true => q != p || decide (w < io.2)
      | .ptr q w false => q != p || decide (w < max io.1 io.2)
      | _ => true) &&
    readsB p (fun w => e.2.ready.contains w) [] r.1 &&
    (r.2 != .returned || b == .expGas || b == .create || b == .call ||
      (List.range io.2).all fun w => r.1.contains (.ptr p w true))

private theorem siteOk_all : siteTable.all siteOk = true := by decide +kernel

/-- **C63.** A builtin called by the code compiled for an instruction stays within that
instruction's part of the stack. With the stack height `top` before it, `i` operands and `u` results:
every word it touches is one of the slots `top - i .. top - i + max i u`; every word it writes is a
result slot; every word it reads is an operand the compiled code has put into memory for it, or
something it has written itself; and when it returns all result slots are written (except for the
gas charge of EXP, which has no result, and CALL and CREATE, whose result is pushed on resumption). -/
theorem C63_slots (o : UInt8) (s : Site) (hs : (o, s) ∈ siteTable) (p : Nat)
    (hp : StackParam s.builtin p) {t r} (hr : Body.Runs (s.builtin.body s.arg) t r)
    (top : Nat) (ht : (computeStackIo o none).1 ≤ top) :
    let io := computeStackIo o none
    let slot := fun w => top - s.depth + w
    (∀ w x, .ptr p w x ∈ t → top - io.1 ≤ slot w ∧ slot w < top - io.1 + max io.1 io.2) ∧
    (∀ w, .ptr p w true ∈ t → slot w < top - io.1 + io.2) ∧
    (∀ w t₁ t₂, t = t₁ ++ .ptr p w false :: t₂ → w ∈ s.ready ∨ .ptr p w true ∈ t₁) ∧
    (r = .returned → s.builtin ∉ [Bi.expGas, .create, .call] →
      ∀ v, top - io.1 ≤ v → v < top - io.1 + io.2 → ∃ w, slot w = v ∧ .ptr p w true ∈ t) := by
  have h := siteOk_all
  simp only [List.all_eq_true] at h
  have h := h _ hs
  simp only [siteOk] at h
  generalize hpp : (if s.builtin.params[0]? == some Kind.sp then 0 else 1) = p' at h
  simp only [Bool.and_eq_true, List.all_eq_true, List.mem_range, beq_iff_eq, Bool.or_eq_true] at h
  obtain ⟨⟨⟨⟨_, hd⟩, hp'⟩, ho⟩, ht'⟩ := h
  have ep : p = p' := by
    have hlt : p < s.builtin.params.length := by
      rcases Nat.lt_or_ge p s.builtin.params.length with h | h
      · exact h
      · rcases hp with hp | hp <;> rw [List.getElem?_eq_none h] at hp <;> cases hp
    rcases ho p hlt with h | h
    · exact h
    · simp only [bne_iff_ne, ne_eq] at h
      rcases hp with hp | hp
      · exact absurd hp h.1
      · exact absurd hp h.2
  subst ep
  obtain ⟨⟨h1, h2⟩, h3⟩ := ht' _ hr.mem
  intro io slot
  have hslot : ∀ w, slot w = top - io.1 + w := fun w => by show top - s.depth + w = _; rw [hd]
  have hw : ∀ w, .ptr p w true ∈ t → w < io.2 := fun w hw => by simpa using h1 _ hw
  refine ⟨fun w x hm => ?_, fun w hm => ?_, fun w t₁ t₂ e => ?_, fun er hb v hv hv' => ?_⟩
  · rw [hslot]
    cases x with
    | true => have := hw w hm; exact ⟨by omega, by omega⟩
    | false =>
      have : w < max io.1 io.2 := by simpa using h1 _ hm
      exact ⟨by omega, by omega⟩
  · rw [hslot]; have := hw w hm; omega
  · rcases readsB_sound p _ t [] h2 w t₁ t₂ e with h | h | h
    · exact .inl (by simpa using h)
    · cases h
    · exact .inr h
  · simp only [List.mem_cons, List.not_mem_nil, or_false, not_or] at hb
    rcases h3 with ((h3 | h3) | h3) | h3
    · rcases h3 with h3 | h3
      · simp [er] at h3
      · exact absurd h3 hb.1
    · exact absurd h3 hb.2.1
    · exact absurd h3 hb.2.2
    · have := h3 (v - (top - io.1)) (by show _ < io.2; omega)
      exact ⟨v - (top - io.1), by rw [hslot]; omega, by simpa using this⟩

/-- LOG2 at height 5: its four operands are slots 1 to 4; the topics are words 1 and 0. -/
example : (op.LOG2, ⟨.log, 2, 4, [0, 1, 2, 3]⟩) ∈ siteTable ∧ StackParam .log 1 ∧
    ∃ t, Body.Runs (Bi.log.body 2) t .returned ∧ .ptr 1 1 false ∈ t ∧ .ptr 1 0 false ∈ t := by
  refine ⟨by decide, .inr rfl, _,
    .act (.right (.act (.right (.act (.act (.right (.act (.right (.act (.act (.act (.act (.act (.right
      (.act (.act (.done _))))))))))))))))), ?_, ?_⟩ <;> decide

/-- **C63.** The variants for constant operands never look at the operand slots, which the compiled
code leaves unwritten for them. -/
theorem C63_constant_operands (b : Bi) (hb : b ∈ [Bi.sloadC, .callDataLoadC, .keccak256CC])
    {t r} (hr : Body.Runs (b.body 0) t r) (w : Nat) : FreshBeforeRead 1 w t := by
  have h : everyRun (fun b t _ => !([Bi.sloadC, .callDataLoadC, .keccak256CC].contains b) ||
      readsB 1 (fun _ => false) [] t) = true := by decide +kernel
  have ha : ArgOk b 0 := by cases b <;> first | trivial | exact Nat.zero_le _ | exact Nat.succ_pos _
  have h := everyRun_sound h ha hr
  have hb' : [Bi.sloadC, .callDataLoadC, .keccak256CC].contains b = true := by simpa using hb
  rw [hb'] at h
  simp only [Bool.not_true, Bool.false_or] at h
  intro t₁ t₂ e
  rcases readsB_sound 1 _ t [] h w t₁ t₂ e with h | h | h
  · cases h
  · cases h
  · exact h

example : ∃ t, Body.Runs (Bi.sloadC.body 0) t .returned ∧ .ptr 1 0 false ∈ t := by
  refine ⟨_, .act (.act (.act (.act (.act (.right (.act (.act (.act (.right
    (.act (.done _))))))))))), ?_⟩
  decide

end Verif.Attrs
