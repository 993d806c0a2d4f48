import Verif.Lemmas.VStackStep
/-!
# The lowerings on the deferred stack
-/

namespace Verif
open Spec
variable {E : Type}

/-- What a compiled, synchronised instruction achieves. -/
def BodyOk (t : TInst E) (cx : SCx E) (S : List Word) (M : List Bool) : Prop :=
  ∃ cx', (SCx.body t cx).bind (SCx.sync t) = some cx' ∧ Frame cx cx' ∧
    cx'.vs.top = cx.vs.top - t.inp + t.out ∧ cx'.trace = events t S ++ cx.trace ∧ Good cx'.vs ∧
    ∀ (d : Nat) (w : Word), M[d]? = some true → (next t S)[d]? = some w →
      valAt cx' (cx'.vs.top - 1 - d) = w

/-- The standing assumptions at an instruction. -/
structure At (t : TInst E) (cx : SCx E) (S : List Word) (G : List Bool) : Prop where
  inv : Inv cx S G
  ok : Ok t S
  lenOff : cx.lenOff = 0
  inp : (t.inp : Int) ≤ cx.vs.top - cx.vs.base
  out : cx.vs.top - t.inp + t.out - cx.vs.base ≤ cx.vs.cap

variable {t : TInst E} {cx : SCx E} {S : List Word} {G : List Bool}

theorem diff_eq (h : t.lower ≠ .suspend) : t.diff = (t.out : Int) - t.inp := by
  unfold TInst.diff; rw [if_neg h]; omega

theorem good_ran (cx : SCx E) (e : E) (h : Good cx.vs) : Good (cx.ran e).vs := h

theorem frame_ran (cx : SCx E) (e : E) : Frame cx (cx.ran e) := ⟨rfl, rfl, rfl, rfl, rfl, rfl⟩

theorem val_ran (cx : SCx E) (e : E) (off : Int) : valAt (cx.ran e) off = valAt cx off := rfl

theorem body_nop (hl : t.lower = .nop) (h : At t cx S G) :
    BodyOk t cx S (List.replicate t.out true ++ G.drop t.inp) := by
  have hs := h.ok.shape; rw [hl] at hs
  have ho := h.ok.results; simp only [pushed, hl, List.length_nil] at ho
  have hi : t.inp = 0 := hs
  refine ⟨cx, ?_, .refl cx, by omega, ?_, h.inv.good, ?_⟩
  · unfold SCx.body; rw [hl]
    exact sync_same (by rw [diff_eq (by rw [hl]; simp), h.inv.sec]; omega)
  · simp [events, hl]
  · exact replace_val true h.inv h.ok (by omega) (by simp [pushed, hl]) (fun _ _ => rfl)

theorem body_popIgnore (hl : t.lower = .popIgnore) (h : At t cx S G) :
    BodyOk t cx S (List.replicate t.out true ++ G.drop t.inp) := by
  have ho := h.ok.results; simp only [pushed, hl, List.length_nil] at ho
  obtain ⟨c1, e1, f1, t1, tr1, g1, _, v1⟩ := popIgnore_ok h.inv.good t.inp h.inp
  refine ⟨c1, ?_, f1, by omega, ?_, g1, ?_⟩
  · unfold SCx.body; rw [hl]; simp only [e1, Option.bind_some]
    exact sync_same (by rw [diff_eq (by rw [hl]; simp), f1.secOff, h.inv.sec]; omega)
  · simp [events, hl, tr1]
  · exact replace_val true h.inv h.ok (by omega) (by simp [pushed, hl]) (fun off _ => v1 off)

theorem body_inline (hl : t.lower = .inline) (hc : compiled t = true) (h : At t cx S G)
    (hr : Readable t G) : BodyOk t cx S (List.replicate t.out true ++ G.drop t.inp) := by
  have hr := hr hc; simp only [hl] at hr
  obtain ⟨c1, e1, f1, t1, tr1, g1, _, v1⟩ := popn_ok t t.inp cx h.inv.good h.inp
  have hrl : readList cx t (-cx.lenOff).toNat t.inp 0 = S.take t.inp := by
    rw [h.lenOff]; exact readList_eq h.inv h.ok hr
  rw [hrl] at e1
  have ho := h.ok.results; simp only [pushed, hl] at ho
  obtain ⟨c2, e2, f2, t2, tr2, g2, v2, w2⟩ := pushAll_ok (t.act (S.take t.inp)).1
    (c1.ran (t.act (S.take t.inp)).2) g1 (by
      show c1.vs.top - c1.vs.base + _ ≤ c1.vs.cap
      rw [t1, f1.base, f1.cap, ho]; have := h.out; omega)
  have t2 : c2.vs.top = c1.vs.top + ((t.act (S.take t.inp)).1.length : Int) := t2
  rw [ho] at t2
  refine ⟨c2, ?_, f1.trans ((frame_ran c1 _).trans f2), by omega, ?_, g2, ?_⟩
  · unfold SCx.body; rw [hl]; simp only [e1, Option.bind_some, e2]
    refine sync_same ?_
    have : c2.secOff = c1.secOff := f2.secOff
    rw [diff_eq (by rw [hl]; simp), this, f1.secOff, h.inv.sec]; omega
  · rw [tr2]; show Ev.ran _ :: c1.trace = _; rw [tr1]; simp [events, hl, hc]
  · refine replace_val true h.inv h.ok (by omega) (fun _ d w hw => ?_) (fun off hoff => ?_)
    · simp only [pushed, hl] at hw
      have := w2 d w hw
      have e : (c1.ran (t.act (S.take t.inp)).2).vs.top = c1.vs.top := rfl
      rw [e, ho] at this
      rw [← this]; congr 1; omega
    · rw [v2 off (by show off < c1.vs.top; omega), val_ran, v1]

theorem body_fold {c : Word} (hl : t.lower = .fold c) (h : At t cx S G) :
    BodyOk t cx S (List.replicate t.out true ++ G.drop t.inp) := by
  have hs := h.ok.shape; rw [hl] at hs
  have ho := h.ok.results; simp only [pushed, hl] at ho
  have hs : (t.act (S.take t.inp)).1 = [c] := hs
  rw [hs] at ho
  simp only [List.length_singleton] at ho
  obtain ⟨c1, e1, f1, t1, tr1, g1, _, v1⟩ := popIgnore_ok h.inv.good t.inp h.inp
  obtain ⟨c2, e2, f2, t2, tr2, g2, _, v2⟩ := push_ok g1 (by rw [t1, f1.base, f1.cap]; have := h.out; omega) c
  refine ⟨c2, ?_, f1.trans f2, by omega, ?_, g2, ?_⟩
  · unfold SCx.body; rw [hl]; simp only [e1, Option.bind_some, e2]
    exact sync_same (by rw [diff_eq (by rw [hl]; simp), f2.secOff, f1.secOff, h.inv.sec]; omega)
  · rw [tr2, tr1]; simp [events, hl]
  · refine replace_val true h.inv h.ok (by omega) (fun _ d w hw => ?_) (fun off hoff => ?_)
    · simp only [pushed, hl, hs] at hw
      cases d with
      | zero =>
        simp only [List.getElem?_cons_zero, Option.some.injEq] at hw
        rw [v2, if_pos (by omega), hw]
      | succ d => simp at hw
    · rw [v2, if_neg (by omega), v1]

theorem getElem?_set' {α : Type} (l : List α) (n d : Nat) (x : α) :
    (l.set n x)[d]? = if d = n ∧ n < l.length then some x else l[d]? := by
  rw [List.getElem?_set]
  by_cases h : n = d
  · subst h
    by_cases h2 : n < l.length
    · simp [h2]
    · simp [h2]
  · rw [if_neg h, if_neg (by omega)]

theorem body_dup {n : Nat} (hl : t.lower = .dup n) (h : At t cx S G) :
    BodyOk t cx S (((t.constIn (n - 1)).isSome || G.getD (n - 1) false) :: G) := by
  have hs := h.ok.shape; rw [hl] at hs
  obtain ⟨hn, hin⟩ : 1 ≤ n ∧ t.inp = n := hs
  have hop := h.ok.operands
  have ho := h.ok.results
  simp only [pushed, hl, List.length_cons, List.length_take] at ho
  have hinp := h.inp; have hout := h.out
  obtain ⟨c1, e1, k1⟩ := valueAtDepth_ok (cx := cx) t h.inv.good (n - 1) (n - 1) (by omega)
  obtain ⟨c2, e2, f2, t2, tr2, g2, _, v2⟩ := push_ok (k1.good h.inv.good)
    (by rw [k1.top, k1.frame.base, k1.frame.cap]; omega)
    ((t.constIn (n - 1)).getD (valAt cx (cx.vs.top - 1 - (n - 1 : Nat))))
  rw [k1.top] at t2
  refine ⟨c2, ?_, k1.frame.trans f2, by omega, ?_, g2, ?_⟩
  · unfold SCx.body SCx.dup; rw [hl]; simp only
    rw [if_neg (by omega), e1]; simp only [Option.bind_some, e2]
    exact sync_same (by rw [diff_eq (by rw [hl]; simp), f2.secOff, k1.frame.secOff, h.inv.sec]; omega)
  · rw [tr2, k1.trace]; simp [events, hl]
  · intro d w hg hw
    have hS : n - 1 < S.length := by omega
    have hnx : next t S = S[n - 1] :: S := by
      unfold next pushed; rw [hl]; simp only [List.cons_append, List.take_append_drop]
      congr 1
      rw [List.getD_eq_getElem?_getD, List.getElem?_take, if_pos (by omega),
        List.getElem?_eq_getElem hS]; rfl
    rw [hnx] at hw
    cases d with
    | zero =>
      simp only [List.getElem?_cons_zero, Option.some.injEq] at hw hg
      rw [v2, if_pos (by rw [k1.top]; omega), ← hw]
      cases hcn : t.constIn (n - 1) with
      | some c =>
        have := h.ok.constIn (n - 1) c (by omega) hcn
        rw [List.getElem?_eq_getElem hS] at this
        simpa using this.symm
      | none =>
        rw [hcn] at hg
        simp only [Option.isSome_none, Bool.false_or] at hg
        have hgm : G[n - 1]? = some true := by
          rw [List.getD_eq_getElem?_getD] at hg
          cases hx : G[n - 1]? with
          | none => rw [hx] at hg; simp at hg
          | some b => rw [hx] at hg; simp at hg; rw [hg]
        exact h.inv.val _ _ hgm (List.getElem?_eq_getElem hS)
    | succ d =>
      simp only [List.getElem?_cons_succ] at hw hg
      rw [v2, if_neg (by rw [k1.top]; omega), k1.val, ← h.inv.val d w hg hw]
      congr 1; omega

theorem setVal {cx : SCx E} (h : Good cx.vs) (d : Nat) (v : Word) (hd : (d : Int) < cx.vs.top - cx.vs.base) :
    ∃ vs, cx.vs.set d v = some vs ∧ vs.base = cx.vs.base ∧ vs.cap = cx.vs.cap ∧ vs.top = cx.vs.top ∧
      Good vs ∧ ∀ off, valAt { cx with vs } off = if off = cx.vs.top - 1 - d then v else valAt cx off := by
  have hr : cx.vs.inRange (cx.vs.offsetAtDepth d) = true := by
    unfold VStack.inRange VStack.offsetAtDepth; have := h.hi; simp; omega
  have e : cx.vs.set d v = some (cx.vs.setSlot (cx.vs.offsetAtDepth d) (.virt v)) := by
    unfold VStack.set VStack.setAtOffset; rw [if_pos hr]
  refine ⟨_, e, rfl, rfl, rfl, ⟨h.lo, h.hi, ?_⟩, ?_⟩
  · intro i h0 h1
    show (if i = cx.vs.offsetAtDepth d - cx.vs.base then some _ else cx.vs.slots i).isSome
    split
    · rfl
    · exact h.set i h0 h1
  · intro off
    unfold valAt
    show ((cx.vs.setSlot _ _).pendingAt off).getD _ = _
    rw [pendingAt_setSlot _ _ _ _ hr]
    show (if off = cx.vs.top - 1 - (d : Int) then some v else _ : Option Word).getD _ = _
    split <;> rfl

/-- An operand that is constant or correctly represented. -/
theorem operand_val (h : Inv cx S G) (hok : Ok t S) (d : Nat) (hd : d < t.inp)
    (hg : ((t.constIn d).isSome || G.getD d false) = true) :
    S[d]? = some ((t.constIn d).getD (valAt cx (cx.vs.top - 1 - d))) := by
  have hS : d < S.length := Nat.lt_of_lt_of_le hd hok.operands
  cases hcn : t.constIn d with
  | some c => rw [hok.constIn d c hd hcn]; rfl
  | none =>
    rw [hcn] at hg
    simp only [Option.isSome_none, Bool.false_or] at hg
    have hgm : G[d]? = some true := by
      rw [List.getD_eq_getElem?_getD] at hg
      cases hx : G[d]? with
      | none => rw [hx] at hg; simp at hg
      | some b => rw [hx] at hg; simp at hg; rw [hg]
    have := h.val _ _ hgm (List.getElem?_eq_getElem hS)
    rw [List.getElem?_eq_getElem hS]
    simp [this]

theorem body_exchange {n m : Nat} (hl : t.lower = .exchange n m) (h : At t cx S G) :
    BodyOk t cx S ((G.set n ((t.constIn (n + m)).isSome || G.getD (n + m) false)).set (n + m)
      ((t.constIn n).isSome || G.getD n false)) := by
  have hs := h.ok.shape; rw [hl] at hs
  obtain ⟨hn, hin⟩ : 1 ≤ m ∧ t.inp = n + m + 1 := hs
  have hop := h.ok.operands
  have ho := h.ok.results
  simp only [pushed, hl, List.length_set, List.length_take] at ho
  have hinp := h.inp; have hout := h.out
  obtain ⟨c1, e1, k1⟩ := valueAtDepth_ok (cx := cx) t h.inv.good n n (by omega)
  obtain ⟨c2, e2, k2⟩ := valueAtDepth_ok (cx := c1) t (k1.good h.inv.good) (n + m) (n + m)
    (by rw [k1.top, k1.frame.base]; omega)
  rw [k1.top, k1.val] at e2
  have k := k1.trans k2
  obtain ⟨v1, e3, b3, p3, t3, g3, w3⟩ := setVal (cx := c2) (k.good h.inv.good) n
    ((t.constIn (n + m)).getD (valAt cx (cx.vs.top - 1 - ((n + m : Nat) : Int))))
    (by rw [k.top, k.frame.base]; omega)
  obtain ⟨v2, e4, b4, p4, t4, g4, w4⟩ := setVal (cx := { c2 with vs := v1 }) g3 (n + m)
    ((t.constIn n).getD (valAt cx (cx.vs.top - 1 - (n : Int))))
    (by show ((n + m : Nat) : Int) < v1.top - v1.base; rw [t3, b3, k.top, k.frame.base]; omega)
  have t4' : v2.top = cx.vs.top := t4.trans (t3.trans k.top)
  refine ⟨{ c2 with vs := v2 }, ?_, k.frame.trans ⟨b4.trans b3, p4.trans p3, rfl, rfl, rfl, rfl⟩,
    by simp only; omega, ?_, g4, ?_⟩
  · unfold SCx.body SCx.exchange; rw [hl]; simp only
    rw [if_neg (by omega), e1]; simp only [Option.bind_some, e2, e3]
    have e4 : v1.set (n + m) _ = some v2 := e4
    rw [e4]
    simp only [Option.map_some, Option.bind_some]
    exact sync_same (by
      rw [diff_eq (by rw [hl]; simp)]
      have : c2.secOff = cx.secOff := k.frame.secOff
      simp only; rw [this, h.inv.sec]; omega)
  · show c2.trace = _
    rw [k.trace]; simp [events, hl]
  · have hnx : next t S = (S.set n (S.getD (n + m) 0)).set (n + m) (S.getD n 0) := by
      unfold next pushed; rw [hl]
      simp only
      apply List.ext_getElem?
      intro d
      have g1 : (S.take t.inp).getD (n + m) 0 = S.getD (n + m) 0 := by
        simp only [List.getD_eq_getElem?_getD, List.getElem?_take]; rw [if_pos (by omega)]
      have g2 : (S.take t.inp).getD n 0 = S.getD n 0 := by
        simp only [List.getD_eq_getElem?_getD, List.getElem?_take]; rw [if_pos (by omega)]
      rw [g1, g2]
      simp only [List.getElem?_append, List.length_set, List.length_take, getElem?_set',
        List.getElem?_take, List.getElem?_drop]
      have h0 : min t.inp S.length = t.inp := by omega
      rw [h0]
      by_cases h1 : d < t.inp
      · rw [if_pos h1]
        simp only [show n < t.inp by omega, show n + m < t.inp by omega, show n < S.length by omega,
          show n + m < S.length by omega, and_true, h1, if_true]
      · rw [if_neg h1, if_neg (by omega), if_neg (by omega), show t.inp + (d - t.inp) = d by omega]
    intro d w hg hw
    rw [hnx] at hw
    simp only [getElem?_set', List.length_set, show n < S.length by omega,
      show n + m < S.length by omega, and_true] at hw
    simp only [getElem?_set', List.length_set, h.inv.mask, show n < S.length by omega,
      show n + m < S.length by omega, and_true] at hg
    simp only [t4']
    rw [w4]
    show (if _ = v1.top - 1 - ((n + m : Nat) : Int) then _ else _) = w
    rw [w3, t3, k.top]
    by_cases hd2 : d = n + m
    · rw [if_pos hd2] at hw hg
      rw [if_pos (by omega)]
      have := operand_val h.inv h.ok n (by omega) (Option.some.inj hg)
      rw [List.getD_eq_getElem?_getD, this] at hw
      exact Option.some.inj hw
    · rw [if_neg hd2] at hw hg
      rw [if_neg (by omega)]
      by_cases hd1 : d = n
      · rw [if_pos hd1] at hw hg
        rw [if_pos (by omega)]
        have := operand_val h.inv h.ok (n + m) (by omega) (Option.some.inj hg)
        rw [List.getD_eq_getElem?_getD, this] at hw
        exact Option.some.inj hw
      · rw [if_neg hd1] at hw hg
        rw [if_neg (by omega), k.val]
        exact h.inv.val d w hg hw

/-- `sp_after_inputs`: nothing but the operand and result slots is touched, those are not pending,
and the buffer holds each operand. -/
theorem spAfterInputs_ok (t : TInst E) (cx : SCx E) (hs : cx.secOff = cx.vs.top) :
    Frame cx (SCx.spAfterInputs t cx) ∧ (SCx.spAfterInputs t cx).vs.top = cx.vs.top ∧
    (SCx.spAfterInputs t cx).trace = cx.trace ∧
    (Good cx.vs → Good (SCx.spAfterInputs t cx).vs) ∧
    (∀ off, off < cx.vs.top - t.inp → valAt (SCx.spAfterInputs t cx) off = valAt cx off) ∧
    (∀ off, cx.vs.top - t.inp ≤ off → off < cx.vs.top - t.inp + max t.inp t.out →
      (SCx.spAfterInputs t cx).vs.pendingAt off = none) ∧
    ∀ d : Nat, d < t.inp → (SCx.spAfterInputs t cx).mem (cx.startLen + cx.secOff - 1 - d) =
      (t.constIn d).getD (valAt cx (cx.vs.top - 1 - d)) := by
  have k := materializeRange_keep cx (cx.secOff - t.inp) (cx.secOff - t.inp + max t.inp t.out)
  refine ⟨k.frame.trans (writeConst_frame t _), k.top, k.trace, k.good, ?_, ?_, ?_⟩
  · intro off ho
    unfold SCx.spAfterInputs
    rw [writeConst_val t _ off (.inl (by rw [k.frame.secOff]; omega)), k.val]
  · intro off h1 h2
    exact (materializeRange_mem cx _ _ off (by omega) (by omega)).2
  · intro d hd
    have hm := materializeRange_mem cx (cx.secOff - t.inp) (cx.secOff - t.inp + max t.inp t.out)
      (cx.secOff - 1 - d) (by omega) (by omega)
    unfold SCx.spAfterInputs
    cases hc : t.constIn d with
    | some c => exact writeConst_const t _ d c hd hc hm.2
    | none =>
      have := writeConst_mem t (cx.materializeRange (cx.secOff - t.inp)
        (cx.secOff - t.inp + max t.inp t.out)) (cx.secOff - 1 - d)
        (.inr (.inr (by rw [k.frame.secOff, show (cx.secOff - 1 - (cx.secOff - 1 - (d : Int))).toNat = d by omega]; exact hc)))
      rw [k.frame.startLen] at this
      rw [show cx.startLen + cx.secOff - 1 - (d : Int) = cx.startLen + (cx.secOff - 1 - d) by omega]
      simp only
      rw [this, hm.1, hs]; rfl

theorem memArgs_eq (h : Inv cx S G) (hok : Ok t S)
    (hr : ∀ d, d < t.inp → (t.constIn d).isSome = true ∨ G[d]? = some true) :
    (SCx.spAfterInputs t cx).memArgs t.inp = S.take t.inp := by
  obtain ⟨f, tp, tr, _, v, p, m⟩ := spAfterInputs_ok t cx h.sec
  unfold SCx.memArgs
  rw [← read_eq h hok hr (fun d => valAt cx (cx.vs.top - 1 - d)) (fun _ _ _ => rfl)]
  apply List.map_congr_left
  intro d hd
  rw [f.startLen, f.secOff]
  exact m d (List.mem_range.1 hd)

/-- Results written by a builtin, then synchronised. -/
theorem writeOut_sync {cx cx1 : SCx E} (h : At t cx S G) (f : Frame cx cx1) (htop : cx1.vs.top = cx.vs.top)
    (hg : Good cx1.vs) (hl : t.lower ≠ .suspend) (res : List Word) (e : E)
    (hres : pushed t (S.take t.inp) = res)
    (hv : ∀ off, off < cx.vs.top - t.inp → valAt cx1 off = valAt cx off)
    (hp : t.inp = t.out → ∀ off, cx.vs.top - t.inp ≤ off → off < cx.vs.top → cx1.vs.pendingAt off = none) :
    ∃ cx', SCx.sync t (SCx.ran { cx1 with
        mem := SCx.writeOut t (cx.startLen + cx.vs.top - t.inp) res cx1.mem } e) = some cx' ∧
      Frame cx cx' ∧ cx'.vs.top = cx.vs.top - t.inp + t.out ∧ cx'.trace = .ran e :: cx1.trace ∧
      Good cx'.vs ∧
      ∀ (d : Nat) (w : Word), (List.replicate t.out true ++ G.drop t.inp)[d]? = some true →
        (next t S)[d]? = some w → valAt cx' (cx'.vs.top - 1 - d) = w := by
  have hinp := h.inp; have hout := h.out
  have hlen := h.ok.results
  rw [hres] at hlen
  obtain ⟨c2, e2, f2, t2, tr2, g2, v2, w2⟩ := sync_builtin (cx := SCx.ran { cx1 with
        mem := SCx.writeOut t (cx.startLen + cx.vs.top - t.inp) res cx1.mem } e) (t := t) hg
    (by show cx1.secOff = cx1.vs.top; rw [f.secOff, htop, h.inv.sec]) hl
    (by show (t.inp : Int) ≤ cx1.vs.top - cx1.vs.base; rw [htop, f.base]; exact hinp)
    (by show cx1.vs.top - t.inp + t.out - cx1.vs.base ≤ cx1.vs.cap; rw [htop, f.base, f.cap]; exact hout)
    (by
      intro heq off h1 h2
      have h1 : cx1.vs.top - t.inp ≤ off := h1
      have h2 : off < cx1.vs.top := h2
      rw [htop] at h1 h2
      exact hp heq off h1 h2)
  have t2 : c2.vs.top = cx1.vs.top - t.inp + t.out := t2
  rw [htop] at t2
  have f2' : Frame cx1 c2 := ⟨f2.base, f2.cap, f2.startLen, f2.secOff, f2.lenVar, f2.storedOff⟩
  refine ⟨c2, e2, f.trans f2', t2, tr2, g2, ?_⟩
  have v2 : ∀ off, off < cx1.vs.top - t.inp → valAt c2 off = valAt { cx1 with
        mem := SCx.writeOut t (cx.startLen + cx.vs.top - t.inp) res cx1.mem } off := v2
  have w2 : ∀ off, cx1.vs.top - t.inp ≤ off → off < cx1.vs.top - t.inp + t.out → valAt c2 off =
    SCx.writeOut t (cx.startLen + cx.vs.top - t.inp) res cx1.mem (cx1.startLen + off) := w2
  rw [htop] at v2 w2
  refine replace_val true h.inv h.ok (by omega) (fun _ d w hw => ?_) (fun off hoff => ?_)
  · rw [hres] at hw
    have hd : d < res.length := by
      rcases Nat.lt_or_ge d res.length with h | h
      · exact h
      · rw [List.getElem?_eq_none h] at hw; simp at hw
    rw [t2, w2 _ (by omega) (by omega), f.startLen]
    unfold SCx.writeOut
    rw [if_pos (by omega), List.getD_eq_getElem?_getD]
    rw [show (cx.startLen + cx.vs.top - (t.inp : Int) + t.out - 1 -
      (cx.startLen + (cx.vs.top - t.inp + t.out - 1 - d))).toNat = d by omega, hw]; rfl
  · rw [v2 off hoff, ← hv off hoff]
    unfold valAt
    simp only
    congr 1
    unfold SCx.writeOut
    rw [if_neg (by rw [f.startLen]; omega), if_neg (by rw [f.startLen]; omega)]

theorem body_builtin (hl : t.lower = .builtin) (hc : compiled t = true) (h : At t cx S G)
    (hr : Readable t G) : BodyOk t cx S (List.replicate t.out true ++ G.drop t.inp) := by
  have hr := hr hc; simp only [hl] at hr
  obtain ⟨f, tp, tr, g, v, p, m⟩ := spAfterInputs_ok t cx h.inv.sec
  have ha := memArgs_eq h.inv h.ok hr
  obtain ⟨c2, e2, f2, t2, tr2, g2, w2⟩ := writeOut_sync h f tp (g h.inv.good) (by rw [hl]; simp)
    (t.act (S.take t.inp)).1 (t.act (S.take t.inp)).2 (by simp only [pushed, hl]) v
    (fun heq off h1 h2 => p off h1 (by omega))
  refine ⟨c2, ?_, f2, t2, ?_, g2, w2⟩
  · unfold SCx.body; rw [hl]; simp only [Option.bind_some, ha]
    rw [show (SCx.spAfterInputs t cx).startLen + (SCx.spAfterInputs t cx).secOff - (t.inp : Int) =
      cx.startLen + cx.vs.top - t.inp by rw [f.startLen, f.secOff, h.inv.sec]]
    exact e2
  · rw [tr2, tr]; simp [events, hl, hc]

theorem body_builtinTop (hl : t.lower = .builtinTop) (hc : compiled t = true) (h : At t cx S G) :
    BodyOk t cx S (List.replicate t.out true ++ G.drop t.inp) := by
  have hs := h.ok.shape; rw [hl] at hs
  have hi : t.inp = 0 := hs
  have ha : S.take t.inp = [] := by rw [hi]; rfl
  have hout := h.out
  obtain ⟨c2, e2, f2, t2, tr2, g2, w2⟩ := writeOut_sync h (.refl cx) rfl h.inv.good (by rw [hl]; simp)
    (t.act []).1 (t.act []).2 (by simp only [pushed, hl, ha]) (fun _ _ => rfl)
    (fun heq off h1 h2 => by omega)
  refine ⟨c2, ?_, f2, t2, ?_, g2, w2⟩
  · unfold SCx.body; rw [hl]; simp only [Option.bind_some]
    rw [show cx.startLen + cx.secOff = cx.startLen + cx.vs.top - t.inp by rw [h.inv.sec]; omega]
    exact e2
  · rw [tr2]; simp [events, hl, hc, ha]

theorem body_keccak {off len : Word} (hl : t.lower = .keccakConst off len) (hc : compiled t = true)
    (h : At t cx S G) : BodyOk t cx S (List.replicate t.out true ++ G.drop t.inp) := by
  have hs := h.ok.shape; rw [hl] at hs
  obtain ⟨hi, ho, hact⟩ : t.inp = 2 ∧ t.out = 1 ∧ t.act (S.take 2) = t.act [off, len] := hs
  have hact' : t.act (S.take t.inp) = t.act [off, len] := by rw [hi]; exact hact
  have f := writeConst_frame t cx
  obtain ⟨c2, e2, f2, t2, tr2, g2, w2⟩ := writeOut_sync h f rfl h.inv.good (by rw [hl]; simp)
    (t.act [off, len]).1 (t.act [off, len]).2 (by simp only [pushed, hl, hact'])
    (fun off hoff => writeConst_val t cx off (.inl (by rw [h.inv.sec]; exact hoff)))
    (fun heq off h1 h2 => by omega)
  refine ⟨c2, ?_, f2, t2, ?_, g2, w2⟩
  · unfold SCx.body; rw [hl]; simp only [Option.bind_some]
    rw [show (SCx.writeConstOperands t cx).startLen + (SCx.writeConstOperands t cx).secOff - (t.inp : Int) =
      cx.startLen + cx.vs.top - t.inp by rw [f.startLen, f.secOff, h.inv.sec]]
    exact e2
  · rw [tr2]; simp [events, hl, hc, hact']; rfl

theorem body_loadConst (hl : t.lower = .loadConst) (hc : compiled t = true)
    (h : At t cx S G) : BodyOk t cx S (List.replicate t.out true ++ G.drop t.inp) := by
  have hs := h.ok.shape; rw [hl] at hs
  obtain ⟨hi, ho, hcs⟩ : t.inp = 1 ∧ t.out = 1 ∧ (t.constIn 0).isSome = true := hs
  have hinp := h.inp
  have ha : ((List.range t.inp).map fun d => (t.constIn d).getD 0) = S.take t.inp := by
    refine read_eq h.inv h.ok (fun d hd => .inl ?_) (fun _ => 0) (fun d hd hn => ?_)
    · rw [show d = 0 by omega]; exact hcs
    · rw [show d = 0 by omega] at hn; rw [hn] at hcs; simp at hcs
  have hr := h.ok.results
  simp only [pushed, hl] at hr
  obtain ⟨w0, hw0⟩ : ∃ w, (t.act (S.take t.inp)).1 = [w] := by
    match hx : (t.act (S.take t.inp)).1, hr with
    | [w], _ => exact ⟨w, rfl⟩
    | [], hr => simp at hr; omega
    | _ :: _ :: _, hr => simp at hr; omega
  have hr : cx.vs.inRange (cx.vs.top - 1) = true := by
    unfold VStack.inRange; have := h.inv.good.hi; simp; omega
  have hm : SCx.writeOut t (cx.startLen + cx.vs.top - 1) [w0] cx.mem (cx.startLen + cx.vs.top - 1) = w0 := by
    unfold SCx.writeOut
    rw [if_pos (by omega), ho,
      show (cx.startLen + cx.vs.top - 1 + ((1 : Nat) : Int) - 1 - (cx.startLen + cx.vs.top - 1)).toNat = 0 by omega]
    rfl
  refine ⟨{ cx with
      mem := SCx.writeOut t (cx.startLen + cx.vs.top - 1) [w0] cx.mem
      trace := .ran (t.act (S.take t.inp)).2 :: cx.trace
      vs := cx.vs.setSlot (cx.vs.top - 1) (.virt w0) }, ?_, ⟨rfl, rfl, rfl, rfl, rfl, rfl⟩, ?_, ?_, ?_, ?_⟩
  · unfold SCx.body; rw [hl]; simp only [SCx.ran, ha, hw0, h.inv.sec, hm, VStack.setAtOffset, hr, if_true,
      Option.map_some, Option.bind_some]
    exact sync_same (by
      rw [diff_eq (by rw [hl]; simp)]
      simp only [VStack.setSlot, h.inv.sec]; omega)
  · show cx.vs.top = _; omega
  · simp [events, hl, hc]
  · refine ⟨h.inv.good.lo, h.inv.good.hi, ?_⟩
    intro i h0 h1
    show (if i = cx.vs.top - 1 - cx.vs.base then some _ else cx.vs.slots i).isSome
    split
    · rfl
    · exact h.inv.good.set i h0 h1
  · refine replace_val true h.inv h.ok (by show cx.vs.top = _; omega) (fun _ d w hw => ?_) (fun off hoff => ?_)
    · simp only [pushed, hl, hw0] at hw
      cases d with
      | zero =>
        simp only [List.getElem?_cons_zero, Option.some.injEq] at hw
        unfold valAt
        simp only
        rw [show (cx.vs.setSlot (cx.vs.top - 1) (.virt w0)).top - 1 - ((0 : Nat) : Int) = cx.vs.top - 1 by
          simp [VStack.setSlot], pendingAt_setSlot _ _ _ _ hr, if_pos rfl, hw]; rfl
      | succ d => simp at hw
    · unfold valAt
      simp only
      rw [pendingAt_setSlot _ _ _ _ hr, if_neg (by omega)]
      congr 1
      unfold SCx.writeOut
      rw [if_neg (by omega), if_neg (by omega)]

/-- `sp_after_inputs_with` for operand 1 of EXP. -/
theorem spAfterInputsWith_ok (t : TInst E) (cx : SCx E) (hs : cx.secOff = cx.vs.top) (hi : t.inp = 2) :
    Frame cx (SCx.spAfterInputsWith t 1 cx) ∧ (SCx.spAfterInputsWith t 1 cx).vs.top = cx.vs.top ∧
    (SCx.spAfterInputsWith t 1 cx).trace = cx.trace ∧
    (SCx.spAfterInputsWith t 1 cx).lenOff = cx.lenOff ∧
    (Good cx.vs → Good (SCx.spAfterInputsWith t 1 cx).vs) ∧
    (∀ off, off < cx.vs.top - t.inp → valAt (SCx.spAfterInputsWith t 1 cx) off = valAt cx off) ∧
    (∀ d : Nat, d < t.inp → t.constIn d = none →
      valAt (SCx.spAfterInputsWith t 1 cx) (cx.vs.top - 1 - d) = valAt cx (cx.vs.top - 1 - d)) ∧
    (SCx.spAfterInputsWith t 1 cx).mem (cx.startLen + cx.secOff - 2) =
      (t.constIn 1).getD (valAt cx (cx.vs.top - 2)) := by
  have k := materializeRange_keep cx (cx.secOff - 1 - (1 : Nat)) (cx.secOff - 1 - (1 : Nat) + 1)
  refine ⟨k.frame.trans (writeConst_frame t _), k.top, k.trace, k.lenOff, k.good, ?_, ?_, ?_⟩
  · intro off ho
    unfold SCx.spAfterInputsWith
    simp only
    rw [writeConst_val t _ off (.inl (by rw [k.frame.secOff]; omega)), k.val]
  · intro d hd hn
    unfold SCx.spAfterInputsWith
    simp only
    rw [writeConst_val t _ _ (.inr (.inr (by
      rw [k.frame.secOff, show (cx.secOff - 1 - (cx.vs.top - 1 - (d : Int))).toNat = d by omega]; exact hn))), k.val]
  · have hm := materializeRange_mem cx (cx.secOff - 1 - (1 : Nat)) (cx.secOff - 1 - (1 : Nat) + 1)
      (cx.secOff - 1 - (1 : Nat)) (by omega) (by omega)
    unfold SCx.spAfterInputsWith
    simp only
    cases hc : t.constIn 1 with
    | some c =>
      have := writeConst_const t (cx.materializeRange (cx.secOff - 1 - (1 : Nat)) (cx.secOff - 1 - (1 : Nat) + 1))
        1 c (by omega) hc hm.2
      rw [k.frame.startLen, k.frame.secOff] at this
      rw [show cx.startLen + cx.secOff - 2 = cx.startLen + cx.secOff - 1 - (1 : Nat) by omega]
      exact this
    | none =>
      have := writeConst_mem t (cx.materializeRange (cx.secOff - 1 - (1 : Nat)) (cx.secOff - 1 - (1 : Nat) + 1))
        (cx.secOff - 1 - (1 : Nat))
        (.inr (.inr (by rw [k.frame.secOff, show (cx.secOff - 1 - (cx.secOff - 1 - ((1 : Nat) : Int))).toNat = 1 by omega]; exact hc)))
      rw [k.frame.startLen] at this
      rw [show cx.startLen + cx.secOff - 2 = cx.startLen + (cx.secOff - 1 - (1 : Nat)) by omega, this, hm.1, hs,
        show cx.vs.top - 1 - ((1 : Nat) : Int) = cx.vs.top - 2 by omega]; rfl

theorem body_expInline (hl : t.lower = .expInline) (hc : compiled t = true) (h : At t cx S G)
    (hr : Readable t G) : BodyOk t cx S (List.replicate t.out true ++ G.drop t.inp) := by
  have hr := hr hc; simp only [hl] at hr
  have hs := h.ok.shape; rw [hl] at hs
  have hi : t.inp = 2 := hs
  obtain ⟨f, tp, tr, lo, g, v, vn, _⟩ := spAfterInputsWith_ok t cx h.inv.sec hi
  obtain ⟨c1, e1, f1, t1, tr1, g1, _, v1⟩ := popn_ok t t.inp (SCx.spAfterInputsWith t 1 cx) (g h.inv.good)
    (by rw [tp, f.base]; exact h.inp)
  have hrl : readList (SCx.spAfterInputsWith t 1 cx) t (-(SCx.spAfterInputsWith t 1 cx).lenOff).toNat t.inp 0 =
      S.take t.inp := by
    rw [lo, h.lenOff]
    have e0 : (-(0 : Int)).toNat = 0 := rfl
    unfold readList
    simp only [Nat.zero_add, e0]
    refine read_eq h.inv h.ok hr _ (fun d hd hn => ?_)
    rw [tp]; exact vn d hd hn
  rw [hrl] at e1
  have ho := h.ok.results; simp only [pushed, hl] at ho
  rw [tp] at t1
  obtain ⟨c2, e2, f2, t2, tr2, g2, v2, w2⟩ := pushAll_ok (t.act (S.take t.inp)).1
    (c1.ran (t.act (S.take t.inp)).2) g1 (by
      show c1.vs.top - c1.vs.base + _ ≤ c1.vs.cap
      rw [t1, f1.base, f1.cap, ho, f.base, f.cap]; have := h.out; omega)
  have t2 : c2.vs.top = c1.vs.top + ((t.act (S.take t.inp)).1.length : Int) := t2
  rw [ho] at t2
  refine ⟨c2, ?_, f.trans (f1.trans ((frame_ran c1 _).trans f2)), by omega, ?_, g2, ?_⟩
  · unfold SCx.body; rw [hl]; simp only [e1, Option.bind_some, e2]
    refine sync_same ?_
    have : c2.secOff = c1.secOff := f2.secOff
    rw [diff_eq (by rw [hl]; simp), this, f1.secOff, f.secOff, h.inv.sec]; omega
  · rw [tr2]; show Ev.ran _ :: c1.trace = _; rw [tr1, tr]; simp [events, hl, hc]
  · refine replace_val true h.inv h.ok (by omega) (fun _ d w hw => ?_) (fun off hoff => ?_)
    · simp only [pushed, hl] at hw
      have := w2 d w hw
      have e : (c1.ran (t.act (S.take t.inp)).2).vs.top = c1.vs.top := rfl
      rw [e, ho] at this
      rw [← this]; congr 1; omega
    · rw [v2 off (by show off < c1.vs.top; omega), val_ran, v1, v off hoff]

theorem body_expFold {c : Word} (hl : t.lower = .expFold c) (hc : compiled t = true) (h : At t cx S G)
    (hr : Readable t G) : BodyOk t cx S (List.replicate t.out true ++ G.drop t.inp) := by
  have hr := hr hc; simp only [hl] at hr
  have hs := h.ok.shape; rw [hl] at hs
  obtain ⟨hi, hb, hact⟩ : t.inp = 2 ∧ (t.constIn 0).isSome = true ∧ (t.act (S.take 2)).1 = [c] := hs
  have ho := h.ok.results; simp only [pushed, hl, hi, hact, List.length_singleton] at ho
  obtain ⟨f, tp, tr, lo, g, v, vn, hm⟩ := spAfterInputsWith_ok t cx h.inv.sec hi
  have ha : [(t.constIn 0).getD 0, (SCx.spAfterInputsWith t 1 cx).mem
      ((SCx.spAfterInputsWith t 1 cx).startLen + (SCx.spAfterInputsWith t 1 cx).secOff - 2)] = S.take t.inp := by
    rw [f.startLen, f.secOff, hm, ← read_eq h.inv h.ok (by
      intro d hd
      match d, hd with
      | 0, _ => exact .inl hb
      | 1, _ => exact hr
      | d + 2, hd => omega) (fun d => valAt cx (cx.vs.top - 1 - d)) (fun _ _ _ => rfl), hi]
    obtain ⟨b, hb⟩ := Option.isSome_iff_exists.1 hb
    have e2 : cx.vs.top - 1 - ((1 : Nat) : Int) = cx.vs.top - 2 := by omega
    have : List.range 2 = [0, 1] := rfl
    rw [this]
    simp only [List.map_cons, List.map_nil, hb, Option.getD_some, e2]
  obtain ⟨c1, e1, f1, t1, tr1, g1, _, v1⟩ := popIgnore_ok
    (cx := (SCx.spAfterInputsWith t 1 cx).ran (t.act (S.take t.inp)).2) (g h.inv.good) t.inp
    (by show (t.inp : Int) ≤ (SCx.spAfterInputsWith t 1 cx).vs.top - (SCx.spAfterInputsWith t 1 cx).vs.base
        rw [tp, f.base]; exact h.inp)
  have f1 : Frame (SCx.spAfterInputsWith t 1 cx) c1 := (frame_ran _ _).trans f1
  have t1 : c1.vs.top = (SCx.spAfterInputsWith t 1 cx).vs.top - t.inp := t1
  rw [tp] at t1
  obtain ⟨c2, e2, f2, t2, tr2, g2, _, v2⟩ := push_ok g1
    (by rw [t1, f1.base, f1.cap, f.base, f.cap]; have := h.out; omega) c
  refine ⟨c2, ?_, f.trans (f1.trans f2), by omega, ?_, g2, ?_⟩
  · unfold SCx.body; rw [hl]; simp only [ha, e1, Option.bind_some, e2]
    exact sync_same (by
      rw [diff_eq (by rw [hl]; simp), f2.secOff, f1.secOff, f.secOff, h.inv.sec]; omega)
  · rw [tr2, tr1]; show Ev.ran _ :: (SCx.spAfterInputsWith t 1 cx).trace = _; rw [tr]; simp [events, hl, hc]
  · refine replace_val true h.inv h.ok (by omega) (fun _ d w hw => ?_) (fun off hoff => ?_)
    · simp only [pushed, hl, hi, hact] at hw
      cases d with
      | zero =>
        simp only [List.getElem?_cons_zero, Option.some.injEq] at hw
        rw [v2, if_pos (by omega), hw]
      | succ d => simp at hw
    · rw [v2, if_neg (by omega), v1, val_ran, v off hoff]

end Verif
