import Verif.Spec.Tramp
/-!
# Loads after stores, and the straight-line code of the trampolines
-/

namespace Verif.Tramp

open Spec

theorem load_store_same (m : Mem) (a v : Nat) (h : v < 2 ^ 64) : (m.store64 a v).load64 a = v := by
  simp only [Mem.load64, Mem.store64]
  have e : ∀ i, i < 8 → (a ≤ a + i ∧ a + i < a + 8) := fun i hi => ⟨by omega, by omega⟩
  rw [if_pos (e 1 (by decide)), if_pos (e 2 (by decide)), if_pos (e 3 (by decide)),
    if_pos (e 4 (by decide)), if_pos (e 5 (by decide)), if_pos (e 6 (by decide)),
    if_pos (e 7 (by decide)), if_pos (⟨Nat.le_refl _, by omega⟩ : a ≤ a ∧ a < a + 8)]
  simp only [Nat.add_sub_cancel_left, Nat.sub_self]
  omega

theorem load_store_ne (m : Mem) (a b v : Nat) (h : b + 8 ≤ a ∨ a + 8 ≤ b) :
    (m.store64 a v).load64 b = m.load64 b := by
  simp only [Mem.load64, Mem.store64]
  have e : ∀ i, i < 8 → ¬ (a ≤ b + i ∧ b + i < a + 8) := fun i hi => by omega
  rw [if_neg (e 1 (by decide)), if_neg (e 2 (by decide)), if_neg (e 3 (by decide)),
    if_neg (e 4 (by decide)), if_neg (e 5 (by decide)), if_neg (e 6 (by decide)),
    if_neg (e 7 (by decide)), if_neg (by omega : ¬ (a ≤ b ∧ b < a + 8))]

theorem byte_store_ne (m : Mem) (a b v : Nat) (h : b < a ∨ a + 8 ≤ b) :
    (m.store64 a v) b = m b := by
  simp only [Mem.store64]
  rw [if_neg (by omega)]

theorem load_congr {m m' : Mem} {lo hi : Nat} (h : SameOn m m' lo hi) {a : Nat} (h1 : lo ≤ a)
    (h2 : a + 8 ≤ hi) : m'.load64 a = m.load64 a := by
  simp only [Mem.load64]
  rw [h a (by omega) (by omega), h (a + 1) (by omega) (by omega), h (a + 2) (by omega) (by omega),
    h (a + 3) (by omega) (by omega), h (a + 4) (by omega) (by omega),
    h (a + 5) (by omega) (by omega), h (a + 6) (by omega) (by omega),
    h (a + 7) (by omega) (by omega)]

namespace X86

theorem run_cons {s s' : St} {i : Instr} (is : List Instr) (h : step s i = some s') :
    run s (i :: is) = run s' is := by
  simp only [run, h, Option.bind_some]

/-- The memory after `revmc_entry` up to the call. -/
def saved (o : Offsets) (s : St) (back : Nat) : Mem :=
  let p := s.reg .rsp
  (((((((s.mem.store64 (p - 8) (s.reg .rbp)).store64 (p - 16) (s.reg .rbx)).store64 (p - 24)
    (s.reg .r12)).store64 (p - 32) (s.reg .r13)).store64 (p - 40) (s.reg .r14)).store64 (p - 48)
    (s.reg .r15)).store64 (s.reg .rdi + o.exitSp) (p - 48)).store64 (p - 64) back

theorem enter_eq {o : Offsets} {s : St} (hs : X86Start o s) (back : Nat) :
    enter o s back = some ⟨fun x => if x = .rsp then s.reg .rsp - 64 else s.reg x, saved o s back⟩ := by
  have hr := hs.room
  have a1 : 8 ≤ s.reg .rsp := by omega
  have a2 : 8 ≤ s.reg .rsp - 8 := by omega
  have a3 : 8 ≤ s.reg .rsp - 16 := by omega
  have a4 : 8 ≤ s.reg .rsp - 24 := by omega
  have a5 : 8 ≤ s.reg .rsp - 32 := by omega
  have a6 : 8 ≤ s.reg .rsp - 40 := by omega
  have a7 : 8 ≤ s.reg .rsp - 48 := by omega
  have a8 : 8 ≤ s.reg .rsp - 56 := by omega
  simp only [enter, entryCode, run, step, call, St.set, reduceCtorEq, if_true, if_false, a1, a2, a3,
    a4, a5, a6, a7, a8, Option.bind_some, Nat.sub_sub, Nat.reduceAdd, saved]
  congr 2
  funext x
  split <;> rfl

/-- The restoring sequence from stack pointer `q`. -/
theorem pops {s : St} {q : Nat} (h : s.reg .rsp = q) :
    ∃ s', run s [.pop .r15, .pop .r14, .pop .r13, .pop .r12, .pop .rbx, .pop .rbp] = some s' ∧
      s'.mem = s.mem ∧ s'.reg .rsp = q + 48 ∧ s'.reg .rax = s.reg .rax ∧
      s'.reg .r15 = s.mem.load64 q ∧ s'.reg .r14 = s.mem.load64 (q + 8) ∧
      s'.reg .r13 = s.mem.load64 (q + 16) ∧ s'.reg .r12 = s.mem.load64 (q + 24) ∧
      s'.reg .rbx = s.mem.load64 (q + 32) ∧ s'.reg .rbp = s.mem.load64 (q + 40) := by
  refine ⟨_, rfl, ?_⟩
  simp [St.set, h]

end X86

namespace Arm

theorem run_cons {s s' : St} {i : Instr} (is : List Instr) (h : step s i = some s') :
    run s (i :: is) = run s' is := by
  simp only [run, h, Option.bind_some]

/-- The memory after `revmc_entry` up to the call. -/
def saved (o : Offsets) (s : St) : Mem :=
  let p := s.reg .sp - 160
  let g (n : Nat) := s.reg (.x n)
  let d (n : Nat) := s.reg (.d n)
  (((((((((((((((((((((s.mem.store64 p (g 29)).store64 (p + 8) (g 30)).store64 (p + 16) (g 19)).store64
    (p + 16 + 8) (g 20)).store64 (p + 32) (g 21)).store64 (p + 32 + 8) (g 22)).store64 (p + 48) (g 23)).store64
    (p + 48 + 8) (g 24)).store64 (p + 64) (g 25)).store64 (p + 64 + 8) (g 26)).store64 (p + 80) (g 27)).store64
    (p + 80 + 8) (g 28)).store64 (p + 96) (d 8)).store64 (p + 96 + 8) (d 9)).store64 (p + 112) (d 10)).store64
    (p + 112 + 8) (d 11)).store64 (p + 128) (d 12)).store64 (p + 128 + 8) (d 13)).store64 (p + 144) (d 14)).store64
    (p + 144 + 8) (d 15)).store64 (g 0 + o.exitSp) p)

theorem enter_eq {o : Offsets} {s : St} (hs : ArmStart o s) (back : Nat) :
    enter o s back = some ⟨fun x => if x = .x 30 then back else if x = .x 9 then s.reg .sp - 160 else
      if x = .sp then s.reg .sp - 160 else s.reg x, saved o s⟩ := by
  have hr := hs.room
  simp only [enter, entryCode, run, step, St.set, hr, if_true, Option.bind_some, Option.map_some,
    Reg.x.injEq, Nat.reduceEqDiff, reduceCtorEq, if_false, saved]

/-- The restoring sequence from stack pointer `q`. -/
theorem restore {s : St} {q : Nat} (h : s.reg .sp = q) :
    ∃ s', run s restoreCode = some s' ∧ s'.mem = s.mem ∧ s'.reg .sp = q + 160 ∧
      s'.reg (.x 0) = s.reg (.x 0) ∧
      s'.reg (.x 29) = s.mem.load64 q ∧ s'.reg (.x 30) = s.mem.load64 (q + 8) ∧
      s'.reg (.x 19) = s.mem.load64 (q + 16) ∧ s'.reg (.x 20) = s.mem.load64 (q + 16 + 8) ∧
      s'.reg (.x 21) = s.mem.load64 (q + 32) ∧ s'.reg (.x 22) = s.mem.load64 (q + 32 + 8) ∧
      s'.reg (.x 23) = s.mem.load64 (q + 48) ∧ s'.reg (.x 24) = s.mem.load64 (q + 48 + 8) ∧
      s'.reg (.x 25) = s.mem.load64 (q + 64) ∧ s'.reg (.x 26) = s.mem.load64 (q + 64 + 8) ∧
      s'.reg (.x 27) = s.mem.load64 (q + 80) ∧ s'.reg (.x 28) = s.mem.load64 (q + 80 + 8) ∧
      s'.reg (.d 8) = s.mem.load64 (q + 96) ∧ s'.reg (.d 9) = s.mem.load64 (q + 96 + 8) ∧
      s'.reg (.d 10) = s.mem.load64 (q + 112) ∧ s'.reg (.d 11) = s.mem.load64 (q + 112 + 8) ∧
      s'.reg (.d 12) = s.mem.load64 (q + 128) ∧ s'.reg (.d 13) = s.mem.load64 (q + 128 + 8) ∧
      s'.reg (.d 14) = s.mem.load64 (q + 144) ∧ s'.reg (.d 15) = s.mem.load64 (q + 144 + 8) := by
  refine ⟨_, rfl, ?_⟩
  simp [St.set, h]

end Arm

end Verif.Tramp
