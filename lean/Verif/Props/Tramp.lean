import Verif.Lemmas.Tramp
/-!
# C64: calling compiled code and leaving it
-/

namespace Verif.Tramp

open Spec

attribute [local irreducible] Mem.load64 Mem.store64

/-! ## x86_64 -/

namespace X86

/-- A caller's state: aligned stack at 0x1008, context at 0x2000, every register distinct. -/
def sampleX86 : St :=
  ⟨fun r => match r with
    | .rsp => 0x1008 | .rdi => 0x2000 | .rsi => 3 | .rdx => 4 | .rcx => 5 | .rbx => 6 | .rbp => 7
    | .r12 => 8 | .r13 => 9 | .r14 => 10 | .r15 => 11 | .rax => 12 | _ => 13, fun a => a % 256⟩

/-- Offsets of the kind found in the real context. -/
def sampleOffsets : Offsets := ⟨168, 176⟩

theorem sampleX86_start : X86Start sampleOffsets sampleX86 where
  word r := by cases r <;> decide
  byte a := Nat.mod_lt _ (by decide)
  aligned := by decide
  room := by decide
  apart := .inr (by decide)

/-- **C64 (x86_64).** The entry trampoline calls the function it was given (still in `rcx` at the
call) with its three arguments in place, the
stack aligned as the calling convention asks, and the return address on top; and writes nothing but
its own 64 bytes of stack and the saved stack pointer in the context. -/
theorem C64_x86_call (o : Offsets) (s : St) (hs : X86Start o s) (back : Nat) (hb : back < 2 ^ 64) :
    ∃ e, enter o s back = some e ∧ e.reg .rdi = s.reg .rdi ∧ e.reg .rsi = s.reg .rsi ∧
      e.reg .rdx = s.reg .rdx ∧ e.reg .rcx = s.reg .rcx ∧ e.mem.load64 (e.reg .rsp) = back ∧ (e.reg .rsp + 8) % 16 = 0 ∧
      ∀ a, (a < s.reg .rsp - 64 ∨ s.reg .rsp ≤ a) →
        (a < s.reg .rdi + o.exitSp ∨ s.reg .rdi + o.exitSp + 8 ≤ a) → e.mem a = s.mem a := by
  have hr := hs.room
  have ha := hs.aligned
  refine ⟨_, enter_eq hs back, rfl, rfl, rfl, rfl, ?_, ?_, ?_⟩
  · exact load_store_same _ _ _ hb
  · show (s.reg .rsp - 64 + 8) % 16 = 0
    omega
  · intro a h1 h2
    show saved o s back a = _
    simp only [saved]
    rw [byte_store_ne _ _ _ _ (by omega), byte_store_ne _ _ _ _ (by omega),
      byte_store_ne _ _ _ _ (by omega), byte_store_ne _ _ _ _ (by omega),
      byte_store_ne _ _ _ _ (by omega), byte_store_ne _ _ _ _ (by omega),
      byte_store_ne _ _ _ _ (by omega), byte_store_ne _ _ _ _ (by omega)]

example : ∃ e, enter sampleOffsets sampleX86 77 = some e ∧ e.mem.load64 (e.reg .rsp) = 77 := by
  obtain ⟨e, h, _, _, _, _, h', _⟩ := C64_x86_call _ _ sampleX86_start 77 (by decide)
  exact ⟨e, h, h'⟩

/-- What is in the save area when compiled code starts. -/
private theorem area {o : Offsets} {s : St} (hs : X86Start o s) (back : Nat) :
    let p := s.reg .rsp
    let m := saved o s back
    m.load64 (p - 48) = s.reg .r15 ∧ m.load64 (p - 40) = s.reg .r14 ∧
    m.load64 (p - 32) = s.reg .r13 ∧ m.load64 (p - 24) = s.reg .r12 ∧
    m.load64 (p - 16) = s.reg .rbx ∧ m.load64 (p - 8) = s.reg .rbp ∧
    m.load64 p = s.mem.load64 p ∧ m.load64 (s.reg .rdi + o.exitSp) = p - 48 := by
  have hr := hs.room
  have hd := hs.apart
  have hw := hs.word
  have hp : s.reg .rsp - 48 < 2 ^ 64 := Nat.lt_of_le_of_lt (Nat.sub_le _ _) (hw .rsp)
  intro p m
  have hpp : s.reg .rsp = p := rfl
  rw [hpp] at hr hd hp
  show (saved o s back).load64 (p - 48) = _ ∧ (saved o s back).load64 (p - 40) = _ ∧ _
  simp only [m, saved, hpp]
  refine ⟨?_, ?_, ?_, ?_, ?_, ?_, ?_, ?_⟩
  · rw [load_store_ne _ _ _ _ (by omega), load_store_ne _ _ _ _ (by omega),
      load_store_same _ _ _ (hw _)]
  · rw [load_store_ne _ _ _ _ (by omega), load_store_ne _ _ _ _ (by omega),
      load_store_ne _ _ _ _ (by omega), load_store_same _ _ _ (hw _)]
  · rw [load_store_ne _ _ _ _ (by omega), load_store_ne _ _ _ _ (by omega),
      load_store_ne _ _ _ _ (by omega), load_store_ne _ _ _ _ (by omega),
      load_store_same _ _ _ (hw _)]
  · rw [load_store_ne _ _ _ _ (by omega), load_store_ne _ _ _ _ (by omega),
      load_store_ne _ _ _ _ (by omega), load_store_ne _ _ _ _ (by omega),
      load_store_ne _ _ _ _ (by omega), load_store_same _ _ _ (hw _)]
  · rw [load_store_ne _ _ _ _ (by omega), load_store_ne _ _ _ _ (by omega),
      load_store_ne _ _ _ _ (by omega), load_store_ne _ _ _ _ (by omega),
      load_store_ne _ _ _ _ (by omega), load_store_ne _ _ _ _ (by omega),
      load_store_same _ _ _ (hw _)]
  · rw [load_store_ne _ _ _ _ (by omega), load_store_ne _ _ _ _ (by omega),
      load_store_ne _ _ _ _ (by omega), load_store_ne _ _ _ _ (by omega),
      load_store_ne _ _ _ _ (by omega), load_store_ne _ _ _ _ (by omega),
      load_store_ne _ _ _ _ (by omega), load_store_same _ _ _ (hw _)]
  · rw [load_store_ne _ _ _ _ (by omega), load_store_ne _ _ _ _ (by omega),
      load_store_ne _ _ _ _ (by omega), load_store_ne _ _ _ _ (by omega),
      load_store_ne _ _ _ _ (by omega), load_store_ne _ _ _ _ (by omega),
      load_store_ne _ _ _ _ (by omega), load_store_ne _ _ _ _ (by omega)]
  · rw [load_store_ne _ _ _ _ (by omega), load_store_same _ _ _ hp]

/-- From the save area back to the caller. -/
private theorem back_of {o : Offsets} {s : St} (hs : X86Start o s) (back : Nat) {e' : St}
    (hq : e'.reg .rsp = s.reg .rsp - 48)
    (hf : SameOn (saved o s back) e'.mem (s.reg .rsp - 48) (s.reg .rsp + 8)) :
    ∃ r, (run e' [.pop .r15, .pop .r14, .pop .r13, .pop .r12, .pop .rbx, .pop .rbp]).map ret = some r ∧
      X86Back s r ∧ r.2.reg .rax = e'.reg .rax ∧ r.2.mem = e'.mem := by
  have hr := hs.room
  obtain ⟨a1, a2, a3, a4, a5, a6, a7, _⟩ := area hs back
  obtain ⟨s', h0, hm, hsp, hax, h15, h14, h13, h12, hbx, hbp⟩ := pops hq
  refine ⟨ret s', by rw [h0]; rfl, ⟨?_, ?_, ?_⟩, hax, hm⟩
  · show s'.mem.load64 (s'.reg .rsp) = _
    rw [hm, hsp, show s.reg .rsp - 48 + 48 = s.reg .rsp by omega,
      load_congr hf (by omega) (by omega), a7]
  · show s'.reg .rsp + 8 = _
    rw [hsp]; omega
  · intro x hx
    simp only [x86Saved, List.mem_cons, List.not_mem_nil, or_false] at hx
    rcases hx with rfl | rfl | rfl | rfl | rfl | rfl
    · show s'.reg .rbx = _
      rw [hbx, load_congr hf (by omega) (by omega), ← a5]; congr 1; omega
    · show s'.reg .rbp = _
      rw [hbp, load_congr hf (by omega) (by omega), ← a6]; congr 1; omega
    · show s'.reg .r12 = _
      rw [h12, load_congr hf (by omega) (by omega), ← a4]; congr 1; omega
    · show s'.reg .r13 = _
      rw [h13, load_congr hf (by omega) (by omega), ← a3]; congr 1; omega
    · show s'.reg .r14 = _
      rw [h14, load_congr hf (by omega) (by omega), ← a2]; congr 1; omega
    · show s'.reg .r15 = _
      rw [h15, load_congr hf (by omega) (by omega), ← a1]

/-- **C64 (x86_64).** When the compiled function returns, the caller gets control back with its stack
pointer and callee-saved registers intact and the function's result; the trampoline writes nothing. -/
theorem C64_x86_return (o : Offsets) (s : St) (hs : X86Start o s) (back : Nat) (e e' : St)
    (he : enter o s back = some e)
    (hf : X86Returned (s.reg .rsp - 48) (s.reg .rsp + 8) e e') :
    ∃ r, leave e' = some r ∧ X86Back s r ∧ r.2.reg .rax = e'.reg .rax ∧ r.2.mem = e'.mem := by
  rw [enter_eq hs back] at he
  cases he
  have hr := hs.room
  have hsp : e'.reg .rsp = s.reg .rsp - 64 + 8 := hf.rsp
  obtain ⟨r, h, hb, hx, hm⟩ := back_of (e' := e'.set .rsp (e'.reg .rsp + 8)) hs back
    (by show e'.reg .rsp + 8 = _; rw [hsp]; omega) hf.frame
  refine ⟨r, ?_, hb, hx, hm⟩
  rw [leave, leaveCode, run_cons _ rfl, h]

/-- The function that returns at once. -/
example : ∃ e, enter sampleOffsets sampleX86 77 = some e ∧
    X86Returned (sampleX86.reg .rsp - 48) (sampleX86.reg .rsp + 8) e
      (e.set .rsp (e.reg .rsp + 8)) := by
  refine ⟨_, enter_eq sampleX86_start 77, rfl, ?_, fun _ _ _ => rfl⟩
  intro x hx
  simp only [x86Saved, List.mem_cons, List.not_mem_nil, or_false] at hx
  rcases hx with rfl | rfl | rfl | rfl | rfl | rfl <;> rfl

/-- **C64 (x86_64).** When a builtin calls the exit trampoline, from any depth and with any contents
of all other registers, the caller gets control back with its stack pointer and callee-saved
registers intact and the result stored in the context; the trampoline writes nothing. -/
theorem C64_x86_exit (o : Offsets) (s : St) (hs : X86Start o s) (back : Nat) (e e' : St)
    (he : enter o s back = some e)
    (hf : X86Exits o (s.reg .rsp - 48) (s.reg .rsp + 8) e e') :
    ∃ r, exit o e' = some r ∧ X86Back s r ∧
      r.2.reg .rax = e'.mem (s.reg .rdi + o.exitResult) ∧ r.2.mem = e'.mem := by
  rw [enter_eq hs back] at he
  cases he
  have hc : e'.reg .rdi = s.reg .rdi := hf.ctx
  have hl : e'.mem.load64 (s.reg .rdi + o.exitSp) = s.reg .rsp - 48 := by
    have := load_congr hf.sp (Nat.le_refl _) (Nat.le_refl _)
    exact this.trans (area hs back).2.2.2.2.2.2.2
  obtain ⟨r, h, hb, hx, hm⟩ := back_of
    (e' := (e'.set .rax (e'.mem (e'.reg .rdi + o.exitResult))).set .rsp
      (e'.mem.load64 (e'.reg .rdi + o.exitSp))) hs back
    (by show e'.mem.load64 (e'.reg .rdi + o.exitSp) = _; rw [hc, hl]) hf.frame
  refine ⟨r, by rw [exit, exitCode, run_cons _ rfl]; exact (congrArg _ (run_cons _ rfl)).trans h, hb, ?_, hm⟩
  rw [hx]
  show e'.mem (e'.reg .rdi + o.exitResult) = _
  rw [hc]

/-- A builtin deep down the stack with every register overwritten. -/
example : ∃ e, enter sampleOffsets sampleX86 77 = some e ∧
    X86Exits sampleOffsets (sampleX86.reg .rsp - 48) (sampleX86.reg .rsp + 8) e
      ⟨fun r => if r = .rdi then 0x2000 else 99, e.mem.store64 0x500 1⟩ := by
  refine ⟨_, enter_eq sampleX86_start 77, rfl, fun a h1 _ => ?_, fun a h1 _ => ?_⟩
  · have h1 : 0x1008 - 48 ≤ a := h1
    exact byte_store_ne _ _ _ _ (by omega)
  · have h1 : 0x2000 + 176 ≤ a := h1
    exact byte_store_ne _ _ _ _ (by omega)

end X86

/-! ## AArch64 -/

namespace Arm

/-- A caller's state with every register distinct. -/
def sampleArm : St :=
  ⟨fun r => match r with | .sp => 0x1000 | .x 0 => 0x2000 | .x n => n % 100 + 1000 | .d n => n % 100 + 2000,
    fun a => a % 256⟩

theorem sampleArm_start : ArmStart X86.sampleOffsets sampleArm where
  word r := by
    unfold sampleArm
    dsimp only
    split <;> first | decide | omega
  byte a := Nat.mod_lt _ (by decide)
  aligned := by decide
  room := by decide
  apart := .inr (by decide)

/-- **C64 (AArch64).** The entry trampoline calls the function it was given (still in `x3` at the
call) with its three arguments in place, the
stack aligned, the return address in the link register; and writes nothing but its own 160 bytes of
stack and the saved stack pointer in the context. -/
theorem C64_arm_call (o : Offsets) (s : St) (hs : ArmStart o s) (back : Nat) :
    ∃ e, enter o s back = some e ∧ e.reg (.x 0) = s.reg (.x 0) ∧ e.reg (.x 1) = s.reg (.x 1) ∧
      e.reg (.x 2) = s.reg (.x 2) ∧ e.reg (.x 3) = s.reg (.x 3) ∧ e.reg (.x 30) = back ∧ e.reg .sp % 16 = 0 ∧
      ∀ a, (a < s.reg .sp - 160 ∨ s.reg .sp ≤ a) →
        (a < s.reg (.x 0) + o.exitSp ∨ s.reg (.x 0) + o.exitSp + 8 ≤ a) → e.mem a = s.mem a := by
  have hr := hs.room
  have ha := hs.aligned
  refine ⟨_, enter_eq hs back, rfl, rfl, rfl, rfl, rfl, ?_, ?_⟩
  · show (s.reg .sp - 160) % 16 = 0
    omega
  · intro a h1 h2
    show saved o s a = _
    simp only [saved]
    repeat rw [byte_store_ne _ _ _ _ (by omega)]

example : ∃ e, enter X86.sampleOffsets sampleArm 77 = some e ∧ e.reg (.x 30) = 77 := by
  obtain ⟨e, h, _, _, _, _, h', _⟩ := C64_arm_call _ _ sampleArm_start 77
  exact ⟨e, h, h'⟩

/-- What is in the save area when compiled code starts. -/
private theorem area {o : Offsets} {s : St} (hs : ArmStart o s) :
    let p := s.reg .sp - 160
    let m := saved o s
    m.load64 p = s.reg (.x 29) ∧ m.load64 (p + 8) = s.reg (.x 30) ∧
    m.load64 (p + 16) = s.reg (.x 19) ∧ m.load64 (p + 16 + 8) = s.reg (.x 20) ∧
    m.load64 (p + 32) = s.reg (.x 21) ∧ m.load64 (p + 32 + 8) = s.reg (.x 22) ∧
    m.load64 (p + 48) = s.reg (.x 23) ∧ m.load64 (p + 48 + 8) = s.reg (.x 24) ∧
    m.load64 (p + 64) = s.reg (.x 25) ∧ m.load64 (p + 64 + 8) = s.reg (.x 26) ∧
    m.load64 (p + 80) = s.reg (.x 27) ∧ m.load64 (p + 80 + 8) = s.reg (.x 28) ∧
    m.load64 (p + 96) = s.reg (.d 8) ∧ m.load64 (p + 96 + 8) = s.reg (.d 9) ∧
    m.load64 (p + 112) = s.reg (.d 10) ∧ m.load64 (p + 112 + 8) = s.reg (.d 11) ∧
    m.load64 (p + 128) = s.reg (.d 12) ∧ m.load64 (p + 128 + 8) = s.reg (.d 13) ∧
    m.load64 (p + 144) = s.reg (.d 14) ∧ m.load64 (p + 144 + 8) = s.reg (.d 15) ∧
    m.load64 (s.reg (.x 0) + o.exitSp) = p := by
  have hr := hs.room
  have hd := hs.apart
  have hw := hs.word
  have hp : s.reg .sp - 160 < 2 ^ 64 := Nat.lt_of_le_of_lt (Nat.sub_le _ _) (hw .sp)
  intro p m
  have hpp : s.reg .sp - 160 = p := rfl
  have hps : s.reg .sp = p + 160 := by omega
  rw [hpp] at hp hd
  rw [hps] at hd
  clear_value p
  simp only [m, saved, hpp]
  refine ⟨?_, ?_, ?_, ?_, ?_, ?_, ?_, ?_, ?_, ?_, ?_, ?_, ?_, ?_, ?_, ?_, ?_, ?_, ?_, ?_, ?_⟩
  rotate_right
  · exact load_store_same _ _ _ hp
  all_goals
    repeat first
      | exact load_store_same _ _ _ (hw _)
      | rw [load_store_ne _ _ _ _ (by omega)]

/-- From the save area back to the caller. -/
private theorem back_of {o : Offsets} {s : St} (hs : ArmStart o s) {e' : St}
    (hq : e'.reg .sp = s.reg .sp - 160)
    (hf : SameOn (saved o s) e'.mem (s.reg .sp - 160) (s.reg .sp)) :
    ∃ r, (run e' restoreCode).map ret = some r ∧ ArmBack s r ∧
      r.2.reg (.x 0) = e'.reg (.x 0) ∧ r.2.mem = e'.mem := by
  have hr := hs.room
  obtain ⟨a29, a30, a19, a20, a21, a22, a23, a24, a25, a26, a27, a28, b8, b9, b10, b11, b12, b13,
    b14, b15, _⟩ := area hs
  obtain ⟨s', h0, hm, hsp, hx0, c29, c30, c19, c20, c21, c22, c23, c24, c25, c26, c27, c28, d8, d9,
    d10, d11, d12, d13, d14, d15⟩ := restore hq
  have L : ∀ k, k ≤ 152 → e'.mem.load64 (s.reg .sp - 160 + k) = (saved o s).load64 (s.reg .sp - 160 + k) :=
    fun k hk => load_congr hf (by omega) (by omega)
  have L' : ∀ k, k ≤ 144 → e'.mem.load64 (s.reg .sp - 160 + k + 8) =
      (saved o s).load64 (s.reg .sp - 160 + k + 8) := fun k hk => load_congr hf (by omega) (by omega)
  refine ⟨ret s', by rw [h0]; rfl, ⟨?_, ?_, ?_⟩, hx0, hm⟩
  · show s'.reg (.x 30) = _
    rw [c30, L 8 (by decide), a30]
  · show s'.reg .sp = _
    rw [hsp]; omega
  · intro x hx
    show s'.reg x = _
    cases x with
    | sp => cases hx
    | x n =>
      have hx : 19 ≤ n ∧ n ≤ 29 := hx
      have : n = 19 ∨ n = 20 ∨ n = 21 ∨ n = 22 ∨ n = 23 ∨ n = 24 ∨ n = 25 ∨ n = 26 ∨ n = 27 ∨
        n = 28 ∨ n = 29 := by omega
      rcases this with rfl | rfl | rfl | rfl | rfl | rfl | rfl | rfl | rfl | rfl | rfl
      · rw [c19, L 16 (by decide), a19]
      · rw [c20, L' 16 (by decide), a20]
      · rw [c21, L 32 (by decide), a21]
      · rw [c22, L' 32 (by decide), a22]
      · rw [c23, L 48 (by decide), a23]
      · rw [c24, L' 48 (by decide), a24]
      · rw [c25, L 64 (by decide), a25]
      · rw [c26, L' 64 (by decide), a26]
      · rw [c27, L 80 (by decide), a27]
      · rw [c28, L' 80 (by decide), a28]
      · rw [c29]; rw [load_congr hf (Nat.le_refl _) (by omega), a29]
    | d n =>
      have hx : 8 ≤ n ∧ n ≤ 15 := hx
      have : n = 8 ∨ n = 9 ∨ n = 10 ∨ n = 11 ∨ n = 12 ∨ n = 13 ∨ n = 14 ∨ n = 15 := by omega
      rcases this with rfl | rfl | rfl | rfl | rfl | rfl | rfl | rfl
      · rw [d8, L 96 (by decide), b8]
      · rw [d9, L' 96 (by decide), b9]
      · rw [d10, L 112 (by decide), b10]
      · rw [d11, L' 112 (by decide), b11]
      · rw [d12, L 128 (by decide), b12]
      · rw [d13, L' 128 (by decide), b13]
      · rw [d14, L 144 (by decide), b14]
      · rw [d15, L' 144 (by decide), b15]

/-- **C64 (AArch64).** When the compiled function returns, the caller gets control back with its
stack pointer and callee-saved registers intact and the function's result. -/
theorem C64_arm_return (o : Offsets) (s : St) (hs : ArmStart o s) (back : Nat) (e e' : St)
    (he : enter o s back = some e) (hf : ArmReturned (s.reg .sp - 160) (s.reg .sp) e e') :
    ∃ r, leave e' = some r ∧ ArmBack s r ∧ r.2.reg (.x 0) = e'.reg (.x 0) ∧ r.2.mem = e'.mem := by
  rw [enter_eq hs back] at he
  cases he
  exact back_of hs hf.sp hf.frame

/-- The function that returns at once. -/
example : ∃ e, enter X86.sampleOffsets sampleArm 77 = some e ∧
    ArmReturned (sampleArm.reg .sp - 160) (sampleArm.reg .sp) e e :=
  ⟨_, enter_eq sampleArm_start 77, rfl, fun _ _ => rfl, fun _ _ _ => rfl⟩

/-- **C64 (AArch64).** When a builtin calls the exit trampoline, from any depth and with any contents
of all other registers, the caller gets control back with its stack pointer and callee-saved
registers intact and the result stored in the context. -/
theorem C64_arm_exit (o : Offsets) (s : St) (hs : ArmStart o s) (back : Nat) (e e' : St)
    (he : enter o s back = some e) (hf : ArmExits o (s.reg .sp - 160) (s.reg .sp) e e') :
    ∃ r, exit o e' = some r ∧ ArmBack s r ∧
      r.2.reg (.x 0) = e'.mem (s.reg (.x 0) + o.exitResult) ∧ r.2.mem = e'.mem := by
  rw [enter_eq hs back] at he
  cases he
  have hc : e'.reg (.x 0) = s.reg (.x 0) := hf.ctx
  have hl : e'.mem.load64 (s.reg (.x 0) + o.exitSp) = s.reg .sp - 160 := by
    have := load_congr hf.sp (Nat.le_refl _) (Nat.le_refl _)
    exact this.trans (area hs).2.2.2.2.2.2.2.2.2.2.2.2.2.2.2.2.2.2.2.2
  obtain ⟨r, h, hb, hx, hm⟩ := back_of
    (e' := ((e'.set (.x 9) (e'.mem.load64 (e'.reg (.x 0) + o.exitSp))).set (.x 0)
      (e'.mem (e'.reg (.x 0) + o.exitResult))).set .sp (e'.mem.load64 (e'.reg (.x 0) + o.exitSp))) hs
    (by show e'.mem.load64 (e'.reg (.x 0) + o.exitSp) = _; rw [hc, hl]) hf.frame
  refine ⟨r, ?_, hb, ?_, hm⟩
  · rw [exit, exitCode, List.cons_append, List.cons_append, List.cons_append, List.nil_append,
      run_cons _ rfl, run_cons _ rfl, run_cons _ rfl]
    exact h
  rw [hx]
  show e'.mem (e'.reg (.x 0) + o.exitResult) = _
  rw [hc]

/-- A builtin deep down the stack with every register overwritten. -/
example : ∃ e, enter X86.sampleOffsets sampleArm 77 = some e ∧
    ArmExits X86.sampleOffsets (sampleArm.reg .sp - 160) (sampleArm.reg .sp) e
      ⟨fun r => if r = .x 0 then 0x2000 else 99, e.mem.store64 0x500 1⟩ := by
  refine ⟨_, enter_eq sampleArm_start 77, rfl, fun a h1 _ => ?_, fun a h1 _ => ?_⟩
  · have h1 : 0x1000 - 160 ≤ a := h1
    exact byte_store_ne _ _ _ _ (by omega)
  · have h1 : 0x2000 + 176 ≤ a := h1
    exact byte_store_ne _ _ _ _ (by omega)

end Arm

end Verif.Tramp
