import Verif.Spec.VStack
/-!
# Helper lemmas for the deferred stack
-/

namespace Verif
open Spec
variable {E : Type}

/-- The pending value of a slot. -/
def VSlot.val : VSlot → Option Word
  | .virt w => some w
  | .mat => none

/-- Pending value or buffer word. -/
def valAt (cx : SCx E) (off : Int) : Word := (cx.vs.pendingAt off).getD (cx.mem (cx.startLen + off))

theorem getAtOffset_eq (s : VStack) (off : Int) :
    s.getAtOffset off = match s.pendingAt off with | some v => .virt v | none => .mat := by
  unfold VStack.getAtOffset VStack.pendingAt
  split
  · cases h : s.slots (off - s.base) with
    | none => simp
    | some x => cases x <;> simp
  · rfl

theorem valueAt_eq (cx : SCx E) (off : Int) : valueAt cx off = valAt cx off := by
  unfold valueAt valAt
  rw [getAtOffset_eq]
  cases cx.vs.pendingAt off <;> rfl

/-- The live part of the virtual stack is inside the vector and set. -/
structure Good (s : VStack) : Prop where
  lo : s.base ≤ s.top
  hi : s.top - s.base ≤ s.cap
  set : ∀ i, 0 ≤ i → i < s.top - s.base → (s.slots i).isSome

/-- Fields no stack operation changes. -/
structure Frame (cx cx' : SCx E) : Prop where
  base : cx'.vs.base = cx.vs.base
  cap : cx'.vs.cap = cx.vs.cap
  startLen : cx'.startLen = cx.startLen
  secOff : cx'.secOff = cx.secOff
  lenVar : cx'.lenVar = cx.lenVar
  storedOff : cx'.storedOff = cx.storedOff

theorem Frame.refl (cx : SCx E) : Frame cx cx := ⟨rfl, rfl, rfl, rfl, rfl, rfl⟩

theorem Frame.trans {a b c : SCx E} (h : Frame a b) (k : Frame b c) : Frame a c :=
  ⟨k.base.trans h.base, k.cap.trans h.cap, k.startLen.trans h.startLen, k.secOff.trans h.secOff,
    k.lenVar.trans h.lenVar, k.storedOff.trans h.storedOff⟩

theorem pendingAt_setSlot (s : VStack) (o off : Int) (v : VSlot) (hr : s.inRange o = true) :
    (s.setSlot o v).pendingAt off =
      if off = o then v.val else s.pendingAt off := by
  unfold VStack.pendingAt VStack.setSlot VStack.inRange at *
  simp only [decide_eq_true_eq] at *
  by_cases h : off = o
  · subst h
    simp only [if_pos hr, if_true]
    cases v <;> rfl
  · have : ¬ (off - s.base = o - s.base) := by omega
    simp only [this, if_neg h, if_false]

theorem push_ok {cx : SCx E} (h : Good cx.vs) (hc : cx.vs.top - cx.vs.base < cx.vs.cap) (v : Word) :
    ∃ cx', cx.push v = some cx' ∧ Frame cx cx' ∧ cx'.vs.top = cx.vs.top + 1 ∧ cx'.trace = cx.trace ∧
      Good cx'.vs ∧ cx'.lenOff = cx.lenOff + 1 ∧
      ∀ off, valAt cx' off = if off = cx.vs.top then v else valAt cx off := by
  have hr : cx.vs.inRange cx.vs.top = true := by
    unfold VStack.inRange; have := h.lo; simp; omega
  have e : cx.push v = some { cx with
      vs := { cx.vs.setSlot cx.vs.top (.virt v) with top := cx.vs.top + 1 }, lenOff := cx.lenOff + 1 } := by
    unfold SCx.push VStack.pushSlot; rw [if_pos hr]; rfl
  refine ⟨_, e, ?_⟩
  · refine ⟨⟨rfl, rfl, rfl, rfl, rfl, rfl⟩, rfl, rfl, ⟨?_, ?_, ?_⟩, rfl, ?_⟩
    · have := h.lo; show cx.vs.base ≤ cx.vs.top + 1; omega
    · show cx.vs.top + 1 - cx.vs.base ≤ cx.vs.cap; omega
    · intro i h0 h1
      show (if i = cx.vs.top - cx.vs.base then some _ else cx.vs.slots i).isSome
      split
      · rfl
      · exact h.set i h0 (by have : i < cx.vs.top + 1 - cx.vs.base := h1; omega)
    · intro off
      have := pendingAt_setSlot cx.vs cx.vs.top off (.virt v) hr
      unfold valAt
      have e : ({ cx.vs.setSlot cx.vs.top (.virt v) with top := cx.vs.top + 1 } : VStack).pendingAt off =
        (cx.vs.setSlot cx.vs.top (.virt v)).pendingAt off := rfl
      show (VStack.pendingAt _ off).getD _ = _
      rw [e, this]
      split <;> rfl

theorem popIgnore_ok {cx : SCx E} (h : Good cx.vs) (n : Nat) (hn : (n : Int) ≤ cx.vs.top - cx.vs.base) :
    ∃ cx', cx.popIgnore n = some cx' ∧ Frame cx cx' ∧ cx'.vs.top = cx.vs.top - n ∧ cx'.trace = cx.trace ∧
      Good cx'.vs ∧ cx'.lenOff = cx.lenOff - n ∧ ∀ off, valAt cx' off = valAt cx off := by
  have e : cx.popIgnore n = some { cx with
      vs := { cx.vs with top := cx.vs.top - n }, lenOff := cx.lenOff - n } := by
    unfold SCx.popIgnore VStack.dropTop; rw [if_pos (by omega)]; rfl
  refine ⟨_, e, ?_⟩
  · refine ⟨⟨rfl, rfl, rfl, rfl, rfl, rfl⟩, rfl, rfl, ⟨?_, ?_, ?_⟩, rfl, fun _ => rfl⟩
    · show cx.vs.base ≤ cx.vs.top - n; omega
    · have := h.hi; show cx.vs.top - n - cx.vs.base ≤ cx.vs.cap; omega
    · intro i h0 h1
      have : i < cx.vs.top - n - cx.vs.base := h1
      exact h.set i h0 (by omega)

/-- Everything but the slots is unchanged, and all values are. -/
structure Keep (cx cx' : SCx E) : Prop where
  frame : Frame cx cx'
  top : cx'.vs.top = cx.vs.top
  lenOff : cx'.lenOff = cx.lenOff
  trace : cx'.trace = cx.trace
  good : Good cx.vs → Good cx'.vs
  val : ∀ off, valAt cx' off = valAt cx off

theorem Keep.refl (cx : SCx E) : Keep cx cx := ⟨.refl cx, rfl, rfl, rfl, id, fun _ => rfl⟩

theorem Keep.trans {a b c : SCx E} (h : Keep a b) (k : Keep b c) : Keep a c :=
  ⟨h.frame.trans k.frame, k.top.trans h.top, k.lenOff.trans h.lenOff, k.trace.trans h.trace,
    fun g => k.good (h.good g), fun off => (k.val off).trans (h.val off)⟩

theorem get_of_good {s : VStack} (h : Good s) (d : Nat) (hd : (d : Int) < s.top - s.base) :
    ∃ x, s.get d = some x ∧ s.inRange (s.offsetAtDepth d) = true ∧
      s.slots (s.offsetAtDepth d - s.base) = some x := by
  have hr : s.inRange (s.offsetAtDepth d) = true := by
    unfold VStack.inRange VStack.offsetAtDepth; have := h.hi; simp; omega
  have := h.set (s.offsetAtDepth d - s.base) (by unfold VStack.offsetAtDepth; omega)
    (by unfold VStack.offsetAtDepth; omega)
  obtain ⟨x, hx⟩ := Option.isSome_iff_exists.1 this
  exact ⟨x, by unfold VStack.get; rw [if_pos hr, hx], hr, hx⟩

theorem valueAtDepth_ok {cx : SCx E} (t : TInst E) (h : Good cx.vs) (od d : Nat)
    (hd : (d : Int) < cx.vs.top - cx.vs.base) :
    ∃ cx', cx.valueAtDepth t od d = some ((t.constIn od).getD (valAt cx (cx.vs.top - 1 - d)), cx') ∧
      Keep cx cx' := by
  unfold SCx.valueAtDepth
  cases hc : t.constIn od with
  | some c => exact ⟨cx, rfl, .refl cx⟩
  | none =>
    obtain ⟨x, hx, hr, hs⟩ := get_of_good h d hd
    have hp : cx.vs.pendingAt (cx.vs.top - 1 - d) = x.val := by
      unfold VStack.pendingAt
      show (if cx.vs.inRange (cx.vs.offsetAtDepth d) then _ else _) = _
      rw [if_pos hr]
      show (match cx.vs.slots (cx.vs.offsetAtDepth d - cx.vs.base) with | some (.virt v) => some v | _ => none) = _
      rw [hs]; cases x <;> rfl
    simp only [hx]
    cases x with
    | virt v =>
      refine ⟨cx, ?_, .refl cx⟩
      simp [valAt, hp, VSlot.val]
    | mat =>
      simp only [VStack.set, VStack.setAtOffset, hr, if_true, Option.map_some]
      refine ⟨{ cx with vs := cx.vs.setSlot (cx.vs.offsetAtDepth d) (.virt (cx.mem (cx.startLen + cx.vs.offsetAtDepth d))) }, ?_, ?_⟩
      · simp only [Option.getD_none, valAt, hp]; rfl
      · refine ⟨⟨rfl, rfl, rfl, rfl, rfl, rfl⟩, rfl, rfl, rfl, ?_, ?_⟩
        · intro g
          refine ⟨g.lo, g.hi, ?_⟩
          intro i h0 h1
          show (if i = cx.vs.offsetAtDepth d - cx.vs.base then some _ else cx.vs.slots i).isSome
          split
          · rfl
          · exact g.set i h0 h1
        · intro off
          unfold valAt
          show ((cx.vs.setSlot _ _).pendingAt off).getD _ = _
          rw [pendingAt_setSlot _ _ _ _ hr]
          split
          · rename_i e
            subst e
            show _ = (cx.vs.pendingAt (cx.vs.top - 1 - d)).getD _
            rw [hp]; rfl
          · rfl

/-- What `popn` reads. -/
def readList (cx : SCx E) (t : TInst E) (ob n i : Nat) : List Word :=
  (List.range n).map fun k => (t.constIn (ob + (i + k))).getD (valAt cx (cx.vs.top - 1 - ((i + k : Nat) : Int)))

theorem readVals_ok (t : TInst E) (ob n i : Nat) (cx : SCx E) (h : Good cx.vs)
    (hn : ((i + n : Nat) : Int) ≤ cx.vs.top - cx.vs.base) :
    ∃ cx', SCx.readVals t ob n i cx = some (readList cx t ob n i, cx') ∧ Keep cx cx' := by
  induction n generalizing i cx with
  | zero => exact ⟨cx, rfl, .refl cx⟩
  | succ n ih =>
    obtain ⟨c1, e1, k1⟩ := valueAtDepth_ok t h (ob + i) i (by omega)
    obtain ⟨c2, e2, k2⟩ := ih (i + 1) c1 (k1.good h) (by rw [k1.top, k1.frame.base]; omega)
    refine ⟨c2, ?_, k1.trans k2⟩
    simp only [SCx.readVals, e1, Option.bind_some, e2, Option.map_some, readList,
      List.range_succ_eq_map, List.map_cons, List.map_map]
    congr 2
    congr 1
    apply List.map_congr_left
    intro k _
    simp only [Function.comp, k1.val, k1.top]
    rw [show i + 1 + k = i + (k + 1) by omega]

theorem popn_ok (t : TInst E) (n : Nat) (cx : SCx E) (h : Good cx.vs)
    (hn : (n : Int) ≤ cx.vs.top - cx.vs.base) :
    ∃ cx', SCx.popn t n cx = some (readList cx t (-cx.lenOff).toNat n 0, cx') ∧ Frame cx cx' ∧
      cx'.vs.top = cx.vs.top - n ∧ cx'.trace = cx.trace ∧ Good cx'.vs ∧ cx'.lenOff = cx.lenOff - n ∧
      ∀ off, valAt cx' off = valAt cx off := by
  obtain ⟨c1, e1, k1⟩ := readVals_ok t (-cx.lenOff).toNat n 0 cx h (by omega)
  obtain ⟨c2, e2, f2, t2, tr2, g2, l2, v2⟩ := popIgnore_ok (k1.good h) n
    (by rw [k1.top, k1.frame.base]; exact hn)
  refine ⟨c2, ?_, k1.frame.trans f2, by rw [t2, k1.top], tr2.trans k1.trace, g2, by rw [l2, k1.lenOff],
    fun off => (v2 off).trans (k1.val off)⟩
  simp only [SCx.popn, e1, Option.bind_some, e2, Option.map_some]

theorem pushAll_ok (ws : List Word) (cx : SCx E) (h : Good cx.vs)
    (hc : cx.vs.top - cx.vs.base + ws.length ≤ cx.vs.cap) :
    ∃ cx', SCx.pushAll ws cx = some cx' ∧ Frame cx cx' ∧ cx'.vs.top = cx.vs.top + ws.length ∧
      cx'.trace = cx.trace ∧ Good cx'.vs ∧
      (∀ off, off < cx.vs.top → valAt cx' off = valAt cx off) ∧
      ∀ (d : Nat) (w : Word), ws[d]? = some w → valAt cx' (cx.vs.top + ws.length - 1 - d) = w := by
  induction ws with
  | nil => exact ⟨cx, rfl, .refl cx, by simp, rfl, h, fun _ _ => rfl, by simp⟩
  | cons w ws ih =>
    simp only [List.length_cons, Int.natCast_add, Int.cast_ofNat_Int] at hc ⊢
    obtain ⟨c1, e1, f1, t1, tr1, g1, v1, w1⟩ := ih (by omega)
    obtain ⟨c2, e2, f2, t2, tr2, g2, _, v2⟩ := push_ok g1 (by rw [t1, f1.base, f1.cap]; omega) w
    refine ⟨c2, ?_, f1.trans f2, by rw [t2, t1]; omega, tr2.trans tr1, g2, ?_, ?_⟩
    · simp only [SCx.pushAll, e1, Option.bind_some, e2]
    · intro off ho
      rw [v2, if_neg (by omega), v1 off ho]
    · intro d x hx
      cases d with
      | zero =>
        simp only [List.getElem?_cons_zero, Option.some.injEq] at hx
        rw [v2, if_pos (by rw [t1]; omega), hx]
      | succ d =>
        simp only [List.getElem?_cons_succ] at hx
        have := w1 d x hx
        have hd : d < ws.length := by
          rcases Nat.lt_or_ge d ws.length with h | h
          · exact h
          · rw [List.getElem?_eq_none h] at hx; simp at hx
        rw [v2, if_neg (by rw [t1]; omega), ← this]
        congr 1; omega

theorem pendingAt_mark (s : VStack) (lo hi off : Int) :
    (s.markMaterialized lo hi).pendingAt off = if lo ≤ off ∧ off < hi then none else s.pendingAt off := by
  unfold VStack.pendingAt VStack.markMaterialized VStack.inRange
  simp only [decide_eq_true_eq, Int.sub_add_cancel]
  by_cases hr : 0 ≤ off - s.base ∧ off - s.base < s.cap
  · simp only [hr, and_true, if_true, true_and]
    by_cases hb : lo ≤ off ∧ off < hi
    · rw [if_pos hb, if_pos hb]
      cases s.slots (off - s.base) <;> rfl
    · rw [if_neg hb, if_neg hb]
  · simp only [hr, if_false, ite_self]

theorem good_mark {s : VStack} (h : Good s) (lo hi : Int) : Good (s.markMaterialized lo hi) := by
  refine ⟨h.lo, h.hi, ?_⟩
  intro i h0 h1
  have := h.set i h0 h1
  show (if _ then _ else _ : Option VSlot).isSome
  split
  · rw [Option.isSome_map]; exact this
  · exact this

theorem materializeRange_keep (cx : SCx E) (lo hi : Int) : Keep cx (cx.materializeRange lo hi) := by
  refine ⟨⟨rfl, rfl, rfl, rfl, rfl, rfl⟩, rfl, rfl, rfl, fun g => good_mark g _ _, ?_⟩
  intro off
  unfold valAt SCx.materializeRange
  simp only [pendingAt_mark]
  by_cases hb : lo ≤ off ∧ off < hi
  · rw [if_pos hb]
    simp only [show cx.startLen + off - cx.startLen = off by omega, hb, and_self, if_true, Option.getD_none]
  · rw [if_neg hb]
    simp only [show cx.startLen + off - cx.startLen = off by omega, hb, if_false]

/-- In a materialised range the buffer holds the values and nothing is pending. -/
theorem materializeRange_mem (cx : SCx E) (lo hi off : Int) (h1 : lo ≤ off) (h2 : off < hi) :
    (cx.materializeRange lo hi).mem (cx.startLen + off) = valAt cx off ∧
      (cx.materializeRange lo hi).vs.pendingAt off = none := by
  constructor
  · unfold SCx.materializeRange valAt
    simp only [show cx.startLen + off - cx.startLen = off by omega, h1, h2, and_self, if_true]
  · unfold SCx.materializeRange
    simp only [pendingAt_mark, h1, h2, and_self, if_true]

theorem relieve_keep (cx : SCx E) : Keep cx cx.relieve := by
  unfold SCx.relieve
  split
  · exact .refl cx
  · split
    · exact .refl cx
    · simp only
      split
      · exact materializeRange_keep cx _ _
      · exact .refl cx

end Verif
