import Verif.Lemmas.VStackRun
/-!
# C24: deferring stack writes is unobservable
-/

namespace Verif
open Spec
variable {E : Type}

namespace Spec

/-- A stack section of the program: not empty, only its last instruction leaves it, and its depth and
growth fit the types of the section analysis (`u16` and `i16`; a section beyond them always fails its
stack check, the EVM stack having 1024 words). -/
structure Section (ts : List (TInst E)) : Prop where
  nonempty : ts ≠ []
  leaves : ∀ t ∈ ts.dropLast, t.lower.leaves = false
  inputs : (ts.foldl (fun a t => a.process t.inp t.out) ({} : StackAcc)).inputs ≤ 65535
  growth : (ts.foldl (fun a t => a.process t.inp t.out) ({} : StackAcc)).maxGrowth ≤ 32767

/-- Code generation with materialisation at arbitrary moments. -/
inductive Op (E : Type)
  | inst (t : TInst E)
  | materialize (lo hi : Int)

/-- The instructions among the operations. -/
def insts : List (Op E) → List (TInst E)
  | [] => []
  | .inst t :: ops => t :: insts ops
  | .materialize .. :: ops => insts ops

/-- Performs the operations. -/
def play : List (Op E) → SCx E → Option (SCx E)
  | [], cx => some cx
  | .inst t :: ops, cx => (SCx.step t cx).bind (play ops)
  | .materialize lo hi :: ops, cx => play ops (cx.materializeRange lo hi)

end Spec

/-- C24. Compiled sections perform exactly the EVM's events — every operation on the EVM's operand
values, every branch decision, every stack shown to the caller at a suspension — never panic in code
generation, and leave the EVM stack in the buffer, whatever the section boundaries. -/
theorem C24_sections (secs : List (List (TInst E))) (S : List Word) (cx : SCx E)
    (hsec : ∀ ts ∈ secs, Section ts) (hn : ∀ t ∈ secs.flatten, t.noop = false)
    (hok : RunOk secs.flatten S) (h : Holds cx S) :
    ∃ cx', SCx.runSections secs cx = some cx' ∧ Holds cx' (run secs.flatten S) ∧
      cx'.trace = runEvents secs.flatten S ++ cx.trace := by
  have hm : (List.replicate S.length true).length = S.length := by simp
  obtain ⟨hr, ha⟩ := masks_all secs.flatten S _ hok hn hm (allTrue _)
  obtain ⟨c, e, hh, tr⟩ := sections_ok secs (fun ts hts => by
    obtain ⟨h1, h2, h3, h4⟩ := hsec ts hts
    refine ⟨h1, shape_of ts h2 (fun t ht => hn t ?_), h3, h4⟩
    exact List.mem_flatten.2 ⟨ts, hts, List.mem_of_getLast? ht⟩) ((holds_iff hm (allTrue _)).2 h) hm hok hr
  exact ⟨c, e, (holds_iff (maskRun_length _ _ _ hok hm) ha).1 hh, tr⟩

theorem play_ok (ops : List (Op E)) (suf : List (TInst E)) {cx : SCx E} {S : List Word} {G : List Bool}
    {a : StackAcc} {I M : Int} (h : Inv cx S G) (hok : RunOk (insts ops) S)
    (hlv : ∀ t ∈ insts ops, t.lower.leaves = false) (hf : Fits (insts ops ++ suf) a I M)
    (hr : RunReadable (insts ops) G) (hb : cx.vs.base = -I) (hc : cx.vs.cap = I + M) (ht : cx.vs.top = a.diff) :
    ∃ cx', play ops cx = some cx' ∧ Inv cx' (run (insts ops) S) (maskRun (insts ops) G) ∧
      cx'.trace = runEvents (insts ops) S ++ cx.trace := by
  induction ops generalizing cx S G a with
  | nil => exact ⟨cx, rfl, h, by simp [runEvents, insts]⟩
  | cons op ops ih =>
    cases op with
    | inst t =>
      obtain ⟨hf1, hf2, hf3⟩ := Fits.head (t := t) (ts := insts ops ++ suf) hf
      obtain ⟨c1, e1, s1⟩ := step_ok (hlv t (by simp [insts])) h hok.1 (by omega) (by omega) hr.1
      have e2 : (a.process t.inp t.out).diff = a.diff + ((t.out : Int) - t.inp) := rfl
      obtain ⟨c2, e2, m2, tr2⟩ := ih s1.inv hok.2 (fun u hu => hlv u (by simp [insts, hu])) hf3 hr.2
        (by rw [s1.base]; exact hb) (by rw [s1.cap]; exact hc) (by rw [s1.top]; omega)
      refine ⟨c2, ?_, m2, ?_⟩
      · simp [play, e1, e2]
      · rw [tr2, s1.trace]; simp [insts, runEvents]
    | materialize lo hi =>
      have k := materializeRange_keep cx lo hi
      obtain ⟨c2, e2, m2, tr2⟩ := ih (h.keep k) hok hlv hf hr (by rw [k.frame.base]; exact hb)
        (by rw [k.frame.cap]; exact hc) (by rw [k.top]; exact ht)
      exact ⟨c2, e2, m2, by rw [tr2, k.trace]; rfl⟩

/-- C24. At every point inside a section, whatever was materialised whenever, code generation has not
panicked, the value used for each stack position is the EVM's, and materialising everything then leaves
the EVM stack in the buffer. -/
theorem C24_positions (ops : List (Op E)) (suf : List (TInst E)) (S : List Word) (cx : SCx E)
    (hsec : Section (insts ops ++ suf)) (hlv : ∀ t ∈ insts ops, t.lower.leaves = false)
    (hn : ∀ t ∈ insts ops, t.noop = false) (hok : RunOk (insts ops ++ suf) S) (h : Holds cx S) :
    ∃ cx', play ops (SCx.head (insts ops ++ suf) cx) = some cx' ∧
      cx'.startLen + cx'.vs.top = (run (insts ops) S).length ∧
      (∀ (d : Nat) (w : Word), (run (insts ops) S)[d]? = some w → valueAt cx' (cx'.vs.top - 1 - d) = w) ∧
      (∀ (d : Nat) (w : Word), (run (insts ops) S)[d]? = some w →
        cx'.materializeLive.mem ((run (insts ops) S).length - 1 - d) = w) ∧
      cx'.trace = runEvents (insts ops) S ++ cx.trace := by
  have hm : (List.replicate S.length true).length = S.length := by simp
  have ho := (runOk_append _ _ _).1 hok
  obtain ⟨hr, ha⟩ := masks_all (insts ops) S _ ho.1 hn hm (allTrue _)
  obtain ⟨I, M, hf, hi, hb, hc, ht, _, htr⟩ := head_ok (insts ops ++ suf)
    ((holds_iff hm (allTrue _)).2 h) hm hok hsec.inputs hsec.growth
  obtain ⟨c, e, hinv, tr⟩ := play_ok ops suf hi ho.1 hlv hf hr hb hc ht
  have hlen := maskRun_length _ _ _ ho.1 hm
  have hd : ∀ (d : Nat) (w : Word), (run (insts ops) S)[d]? = some w →
      (maskRun (insts ops) (List.replicate S.length true))[d]? = some true := by
    intro d w hw
    have : d < (run (insts ops) S).length := by
      rcases Nat.lt_or_ge d (run (insts ops) S).length with h | h
      · exact h
      · rw [List.getElem?_eq_none h] at hw; simp at hw
    exact ha d (by omega)
  refine ⟨c, e, hinv.len, fun d w hw => ?_, fun d w hw => ?_, by rw [tr, htr]⟩
  · rw [valueAt_eq]; exact hinv.val d w (hd d w hw) hw
  · have := hinv.len
    rw [show ((run (insts ops) S).length : Int) - 1 - d = c.startLen + (c.vs.top - 1 - d) by omega,
      live_mem c _ (by omega)]
    exact hinv.val d w (hd d w hw) hw

/-! ## Concrete cases -/

namespace VStackExample

/-- A push of a constant. -/
def push (w : Word) : TInst Nat := { inp := 0, out := 1, lower := .inline, act := fun _ => ([w], 0) }
/-- ADD, inline. -/
def add : TInst Nat :=
  { inp := 2, out := 1, lower := .inline, act := fun a => ([a.getD 0 0 + a.getD 1 0], 1) }
/-- SWAP1. -/
def swap1 : TInst Nat := { inp := 2, out := 2, lower := .exchange 0 1, act := fun _ => ([], 0) }
/-- DUP2. -/
def dup2 : TInst Nat := { inp := 2, out := 3, lower := .dup 2, act := fun _ => ([], 0) }
/-- SLOAD as a builtin whose answer is its key plus 100. -/
def sload : TInst Nat :=
  { inp := 1, out := 1, lower := .builtin, act := fun a => ([a.getD 0 0 + 100], 2 + (a.getD 0 0).toNat) }
/-- CREATE-like suspension. -/
def call : TInst Nat :=
  { inp := 2, out := 1, lower := .suspend, act := fun a => ([1], 1000 + (a.getD 1 0).toNat), clob := fun _ => 77 }

/-- Two sections, the first ended by the suspension. -/
def prog : List (List (TInst Nat)) := [[push 5, dup2, swap1, sload, call], [push 9, add]]

/-- A buffer holding the stack `[3]` (top first). -/
def start : SCx Nat := { mem := fun a => if a = 0 then 3 else 0, lenVar := 1 }

end VStackExample

open VStackExample in
example : Holds start [3] := by
  refine ⟨rfl, fun d w hw => ?_⟩
  cases d with
  | zero => simp at hw; simp [start, hw]
  | succ d => simp at hw

open VStackExample in
example : run prog.flatten [3] = [10, 3] ∧
    runEvents prog.flatten [3] =
      [.ran 1, .ran 0, .suspended [3], .ran (1000 + 3), .ran (2 + 5), .ran 0] := by decide

open VStackExample in
example : RunOk prog.flatten [3] ∧ ∀ t ∈ prog.flatten, t.noop = false := by
  refine ⟨⟨?_, ?_, ?_, ?_, ?_, ?_, ?_, trivial⟩, by decide⟩
  all_goals exact ⟨by decide, by decide, by intro d c _ h; simp [push, add, swap1, dup2, sload, call] at h,
    by intro c _ h; simp [push, add, swap1, dup2, sload, call] at h, by decide, by simp [push, add, swap1, dup2, sload, call]⟩

open VStackExample in
example : ∀ ts ∈ prog, Section ts := by
  intro ts hts
  simp only [prog, List.mem_cons, List.not_mem_nil, or_false] at hts
  rcases hts with h | h <;> subst h <;>
    exact ⟨by simp, by decide, by decide, by decide⟩

open VStackExample in
example : (SCx.runSections prog start).map (fun cx => (cx.lenVar, cx.mem 0, cx.mem 1, cx.trace)) =
    some (2, 3, 10, runEvents prog.flatten [3]) := by decide

end Verif
