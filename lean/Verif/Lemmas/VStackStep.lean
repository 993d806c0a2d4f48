import Verif.Lemmas.VStack
/-!
# One instruction on the deferred stack
-/

namespace Verif
open Spec
variable {E : Type}

/-- The deferred stack represents the EVM stack `S` at the positions marked in `G` (top first). -/
structure Inv (cx : SCx E) (S : List Word) (G : List Bool) : Prop where
  good : Good cx.vs
  sec : cx.secOff = cx.vs.top
  len : cx.startLen + cx.vs.top = S.length
  nonneg : 0 ≤ cx.startLen + cx.vs.base
  stored : cx.lenVar = cx.startLen + cx.storedOff
  mask : G.length = S.length
  val : ∀ (d : Nat) (w : Word), G[d]? = some true → S[d]? = some w → valAt cx (cx.vs.top - 1 - d) = w

/-- Operands the compiled logic must be able to read. -/
def Readable (t : TInst E) (G : List Bool) : Prop :=
  compiled t = true →
  let ok (d : Nat) := (t.constIn d).isSome = true ∨ G[d]? = some true
  match t.lower with
  | .inline | .builtin | .expInline => ∀ d, d < t.inp → ok d
  | .suspend => (∀ d, d < t.inp → ok d) ∧ ∀ d, t.inp ≤ d → d < G.length → G[d]? = some true
  | .expFold _ => ok 1
  | .branch rt j rc => (rt = true → ok 0) ∧ (j = true → rc = true → ok 1)
  | _ => True

/-- Positions correctly represented after the instruction. -/
def maskNext (t : TInst E) (G : List Bool) : List Bool :=
  if t.noop then
    match t.lower with
    | .dup _ => t.constOut.isSome :: G
    | .exchange n m => (G.set n false).set (n + m) false
    | _ => if t.inp = 0 ∧ t.out = 1 then t.constOut.isSome :: G
           else List.replicate t.out false ++ G.drop t.inp
  else if 0 < t.out ∧ t.constOut.isSome then
    match t.lower with
    | .dup _ => true :: G
    | _ => List.replicate t.out true ++ G.drop t.inp
  else
    match t.lower with
    | .dup n => ((t.constIn (n - 1)).isSome || G.getD (n - 1) false) :: G
    | .exchange n m =>
      (G.set n ((t.constIn (n + m)).isSome || G.getD (n + m) false)).set (n + m)
        ((t.constIn n).isSome || G.getD n false)
    | _ => List.replicate t.out true ++ G.drop t.inp

theorem read_eq {cx : SCx E} {S : List Word} {G : List Bool} {t : TInst E} (h : Inv cx S G)
    (hok : Ok t S) (hr : ∀ d, d < t.inp → (t.constIn d).isSome = true ∨ G[d]? = some true)
    (val : Nat → Word) (hval : ∀ d, d < t.inp → t.constIn d = none → val d = valAt cx (cx.vs.top - 1 - d)) :
    ((List.range t.inp).map fun d => (t.constIn d).getD (val d)) = S.take t.inp := by
  apply List.ext_getElem?
  intro d
  rw [List.getElem?_map, List.getElem?_take]
  by_cases hd : d < t.inp
  · rw [List.getElem?_range hd, if_pos hd]
    have hS : d < S.length := Nat.lt_of_lt_of_le hd hok.operands
    cases hc : t.constIn d with
    | some c => rw [hok.constIn d c hd hc]; simp [hc]
    | none =>
      rcases hr d hd with h1 | h1
      · rw [hc] at h1; simp at h1
      · have := h.val d _ h1 (List.getElem?_eq_getElem hS)
        rw [List.getElem?_eq_getElem hS]
        simp [hc, hval d hd hc, this]
  · rw [List.getElem?_eq_none (by simp; omega), if_neg hd]; rfl

theorem readList_eq {cx : SCx E} {S : List Word} {G : List Bool} {t : TInst E} (h : Inv cx S G)
    (hok : Ok t S) (hr : ∀ d, d < t.inp → (t.constIn d).isSome = true ∨ G[d]? = some true) :
    readList cx t 0 t.inp 0 = S.take t.inp := by
  unfold readList
  simp only [Nat.zero_add]
  exact read_eq h hok hr _ fun _ _ _ => rfl

/-- The operands replaced by results: the values afterwards. -/
theorem replace_val {cx cx' : SCx E} {S : List Word} {G : List Bool} {t : TInst E} (b : Bool)
    (h : Inv cx S G) (hok : Ok t S) (ht : cx'.vs.top = cx.vs.top - t.inp + t.out)
    (hnew : b = true → ∀ (d : Nat) (w : Word), (pushed t (S.take t.inp))[d]? = some w →
      valAt cx' (cx'.vs.top - 1 - d) = w)
    (hold : ∀ off, off < cx.vs.top - t.inp → valAt cx' off = valAt cx off) :
    ∀ (d : Nat) (w : Word), (List.replicate t.out b ++ G.drop t.inp)[d]? = some true →
      (next t S)[d]? = some w → valAt cx' (cx'.vs.top - 1 - d) = w := by
  intro d w hg hw
  unfold next at hw
  rcases Nat.lt_or_ge d t.out with hd | hd
  · rw [List.getElem?_append_left (by simpa using hd), List.getElem?_replicate, if_pos hd] at hg
    rw [List.getElem?_append_left (by rw [hok.results]; exact hd)] at hw
    exact hnew (by simpa using hg) d w hw
  · rw [List.getElem?_append_right (by simpa using hd), List.length_replicate, List.getElem?_drop] at hg
    rw [List.getElem?_append_right (by rw [hok.results]; exact hd), hok.results, List.getElem?_drop] at hw
    have := h.val _ _ hg hw
    rw [hold _ (by omega), ← this]
    congr 1; omega

theorem pushMems_ok (n : Nat) (s : VStack) (h : Good s) (hc : s.top - s.base + n ≤ s.cap) :
    ∃ s', SCx.pushMems n s = some s' ∧ s'.base = s.base ∧ s'.cap = s.cap ∧ s'.top = s.top + n ∧
      Good s' ∧ ∀ off, s'.pendingAt off = if s.top ≤ off ∧ off < s.top + n then none else s.pendingAt off := by
  induction n generalizing s with
  | zero =>
    refine ⟨s, rfl, rfl, rfl, by simp, h, fun off => ?_⟩
    rw [if_neg (by omega)]
  | succ n ih =>
    have hr : s.inRange s.top = true := by
      unfold VStack.inRange; have := h.lo; simp; omega
    have g1 : Good { s.setSlot s.top .mat with top := s.top + 1 } := by
      refine ⟨?_, ?_, ?_⟩
      · have := h.lo; show s.base ≤ s.top + 1; omega
      · show s.top + 1 - s.base ≤ s.cap; omega
      · intro i h0 h1
        show (if i = s.top - s.base then some _ else s.slots i).isSome
        split
        · rfl
        · exact h.set i h0 (by have : i < s.top + 1 - s.base := h1; omega)
    obtain ⟨s', e, b, c, t, g, p⟩ := ih { s.setSlot s.top .mat with top := s.top + 1 } g1
      (by show s.top + 1 - s.base + n ≤ s.cap; omega)
    refine ⟨s', ?_, b, c, ?_, g, fun off => ?_⟩
    · simp only [SCx.pushMems, VStack.pushSlot, hr, if_true, Option.bind_some, e]
    · rw [t]; show s.top + 1 + n = _; omega
    · have q := pendingAt_setSlot s s.top off .mat hr
      have e : ({ s.setSlot s.top .mat with top := s.top + 1 } : VStack).pendingAt off =
        (s.setSlot s.top .mat).pendingAt off := rfl
      rw [p, e, q]
      show (if s.top + 1 ≤ off ∧ off < s.top + 1 + n then none else _) = _
      by_cases h1 : off = s.top
      · rw [if_neg (by omega), if_pos h1, if_pos (by omega)]; rfl
      · by_cases h2 : s.top + 1 ≤ off ∧ off < s.top + 1 + n
        · rw [if_pos h2, if_pos (by omega)]
        · rw [if_neg h2, if_neg h1, if_neg (by omega)]

theorem sync_same {cx : SCx E} {t : TInst E} (h : cx.vs.top = cx.secOff + t.diff) :
    SCx.sync t cx = some cx := by
  unfold SCx.sync; rw [if_pos h]

/-- Synchronising after a builtin that left its results in the buffer. -/
theorem sync_builtin {cx : SCx E} {t : TInst E} (h : Good cx.vs) (hs : cx.secOff = cx.vs.top)
    (hl : t.lower ≠ .suspend) (hi : (t.inp : Int) ≤ cx.vs.top - cx.vs.base)
    (ho : cx.vs.top - t.inp + t.out - cx.vs.base ≤ cx.vs.cap)
    (hp : t.inp = t.out → ∀ off, cx.vs.top - t.inp ≤ off → off < cx.vs.top → cx.vs.pendingAt off = none) :
    ∃ cx', SCx.sync t cx = some cx' ∧ Frame cx cx' ∧ cx'.vs.top = cx.vs.top - t.inp + t.out ∧
      cx'.trace = cx.trace ∧ Good cx'.vs ∧
      (∀ off, off < cx.vs.top - t.inp → valAt cx' off = valAt cx off) ∧
      ∀ off, cx.vs.top - t.inp ≤ off → off < cx.vs.top - t.inp + t.out →
        valAt cx' off = cx.mem (cx.startLen + off) := by
  have hd : t.diff = (t.out : Int) - t.inp := by unfold TInst.diff; rw [if_neg hl]; omega
  by_cases heq : t.inp = t.out
  · refine ⟨cx, sync_same (by rw [hs, hd]; omega), .refl cx, by omega, rfl, h, fun _ _ => rfl, ?_⟩
    intro off h1 h2
    unfold valAt
    rw [hp heq off h1 (by omega)]; rfl
  · have key : ∃ vs, (if cx.secOff + t.diff < cx.vs.top then cx.vs.dropTop (cx.vs.top - (cx.secOff + t.diff))
        else SCx.pushMems (cx.secOff + t.diff - cx.vs.top).toNat cx.vs) = some vs ∧ vs.base = cx.vs.base ∧
        vs.cap = cx.vs.cap ∧ vs.top = cx.vs.top - t.inp + t.out ∧ Good vs ∧
        ∀ off, off < cx.vs.top - t.inp → vs.pendingAt off = cx.vs.pendingAt off := by
      by_cases hlt : cx.secOff + t.diff < cx.vs.top
      · rw [if_pos hlt]
        have e : cx.vs.dropTop (cx.vs.top - (cx.secOff + t.diff)) =
            some { cx.vs with top := cx.vs.top - (cx.vs.top - (cx.secOff + t.diff)) } := by
          unfold VStack.dropTop; rw [if_pos (by omega)]
        refine ⟨_, e, rfl, rfl, by simp only; omega, ⟨?_, ?_, ?_⟩, fun _ _ => rfl⟩
        · show cx.vs.base ≤ cx.vs.top - (cx.vs.top - (cx.secOff + t.diff)); omega
        · have := h.hi
          show cx.vs.top - (cx.vs.top - (cx.secOff + t.diff)) - cx.vs.base ≤ cx.vs.cap; omega
        · intro i h0 h1
          have : i < cx.vs.top - (cx.vs.top - (cx.secOff + t.diff)) - cx.vs.base := h1
          exact h.set i h0 (by omega)
      · rw [if_neg hlt]
        obtain ⟨s', e, b, c, tt, g, p⟩ := pushMems_ok (cx.secOff + t.diff - cx.vs.top).toNat cx.vs h (by omega)
        refine ⟨s', e, b, c, by rw [tt]; omega, g, fun off ho => ?_⟩
        rw [p, if_neg (by omega)]
    obtain ⟨vs, e, b, c, tt, g, p⟩ := key
    have e2 : SCx.sync t cx = some { cx with
        vs := if 0 < t.out then vs.markMaterialized (cx.secOff + t.diff - t.out) (cx.secOff + t.diff) else vs } := by
      unfold SCx.sync
      rw [if_neg (by omega), if_neg (by omega)]
      simp only
      rw [e]; rfl
    refine ⟨_, e2, ?_⟩
    by_cases hout : 0 < t.out
    · simp only [hout, if_true]
      refine ⟨⟨b, c, rfl, rfl, rfl, rfl⟩, tt, trivial, good_mark g _ _, ?_, ?_⟩
      · intro off ho
        unfold valAt
        simp only
        rw [pendingAt_mark, if_neg (by omega), p off ho]
      · intro off h1 h2
        unfold valAt
        simp only
        rw [pendingAt_mark, if_pos (by omega)]; rfl
    · simp only [hout, if_false]
      refine ⟨⟨b, c, rfl, rfl, rfl, rfl⟩, tt, trivial, g, ?_, ?_⟩
      · intro off ho
        unfold valAt
        simp only
        rw [p off ho]
      · intro off h1 h2; omega

theorem writeConst_frame (t : TInst E) (cx : SCx E) : Frame cx (SCx.writeConstOperands t cx) :=
  ⟨rfl, rfl, rfl, rfl, rfl, rfl⟩

/-- Writing constant operands only touches operands that are known constants. -/
theorem writeConst_mem (t : TInst E) (cx : SCx E) (off : Int)
    (h : off < cx.secOff - t.inp ∨ cx.secOff ≤ off ∨ t.constIn (cx.secOff - 1 - off).toNat = none) :
    (SCx.writeConstOperands t cx).mem (cx.startLen + off) = cx.mem (cx.startLen + off) := by
  unfold SCx.writeConstOperands
  simp only [show cx.startLen + off - cx.startLen = off by omega]
  split
  · rcases h with h | h | h
    · omega
    · omega
    · rw [h]
      cases cx.vs.getAtOffset off <;> rfl
  · rfl

theorem writeConst_val (t : TInst E) (cx : SCx E) (off : Int)
    (h : off < cx.secOff - t.inp ∨ cx.secOff ≤ off ∨ t.constIn (cx.secOff - 1 - off).toNat = none) :
    valAt (SCx.writeConstOperands t cx) off = valAt cx off := by
  unfold valAt
  rw [show (SCx.writeConstOperands t cx).startLen = cx.startLen from rfl, writeConst_mem t cx off h]; rfl

/-- A known constant operand that is not pending is in the buffer afterwards. -/
theorem writeConst_const (t : TInst E) (cx : SCx E) (d : Nat) (c : Word) (hd : d < t.inp)
    (hc : t.constIn d = some c) (hp : cx.vs.pendingAt (cx.secOff - 1 - d) = none) :
    (SCx.writeConstOperands t cx).mem (cx.startLen + cx.secOff - 1 - d) = c := by
  unfold SCx.writeConstOperands
  simp only [show cx.startLen + cx.secOff - 1 - (d : Int) - cx.startLen = cx.secOff - 1 - d by omega,
    show cx.secOff - 1 - (cx.secOff - 1 - (d : Int)) = d by omega]
  rw [if_pos (by omega), getAtOffset_eq, hp]
  simp [hc]

end Verif
