import Verif.Lemmas.VStackBody
/-!
# Whole instructions and sections on the deferred stack
-/

namespace Verif
open Spec
variable {E : Type} {t : TInst E} {cx : SCx E} {S : List Word} {G : List Bool}

/-- The buffer and the length variable hold the marked words of `S`. -/
def HoldsM (cx : SCx E) (S : List Word) (G : List Bool) : Prop :=
  cx.lenVar = S.length ∧
    ∀ (d : Nat) (w : Word), G[d]? = some true → S[d]? = some w → cx.mem (S.length - 1 - d) = w

/-- After `materialize_live_stack` the buffer holds every value below the top. -/
theorem live_mem (cx : SCx E) (off : Int) (h : off < cx.vs.top) :
    cx.materializeLive.mem (cx.startLen + off) = valAt cx off := by
  rcases Int.lt_or_le off cx.vs.base with h1 | h1
  · have k := (materializeRange_keep cx cx.vs.base cx.vs.top).val off
    unfold SCx.materializeLive
    rw [← k]
    unfold valAt
    have : (cx.materializeRange cx.vs.base cx.vs.top).vs.pendingAt off = none := by
      unfold VStack.pendingAt
      have : (cx.materializeRange cx.vs.base cx.vs.top).vs.inRange off = false := by
        unfold VStack.inRange SCx.materializeRange VStack.markMaterialized
        simp only [decide_eq_false_iff_not]; omega
      rw [this]; rfl
    rw [this]; rfl
  · exact (materializeRange_mem cx cx.vs.base cx.vs.top off h1 h).1

theorem next_length (hok : Ok t S) : ((next t S).length : Int) = S.length - t.inp + t.out := by
  unfold next
  have h1 := hok.results; have h2 := hok.operands
  rw [List.length_append, h1, List.length_drop]; omega

/-- The result of a step that stays in its section. -/
structure StepOk (t : TInst E) (cx cx' : SCx E) (S : List Word) (G : List Bool) : Prop where
  inv : Inv cx' (next t S) (maskNext t G)
  base : cx'.vs.base = cx.vs.base
  cap : cx'.vs.cap = cx.vs.cap
  startLen : cx'.startLen = cx.startLen
  top : cx'.vs.top = cx.vs.top - t.inp + t.out
  trace : cx'.trace = events t S ++ cx.trace
  stored : t.noop = false → cx'.lenVar = (next t S).length

/-- The length variable written by `translate_inst` (translate/mod.rs:676-690). -/
def SCx.saveLen (t : TInst E) (cx : SCx E) : SCx E :=
  if cx.secOff + t.diff = cx.storedOff then { cx with lenOff := 0 }
  else { cx with lenOff := 0, lenVar := cx.startLen + (cx.secOff + t.diff), storedOff := cx.secOff + t.diff }

theorem saveLen_ok (h : Inv cx S G) : Inv (SCx.saveLen t cx) S G ∧ (SCx.saveLen t cx).lenOff = 0 ∧
    (SCx.saveLen t cx).vs = cx.vs ∧ (SCx.saveLen t cx).startLen = cx.startLen ∧
    (SCx.saveLen t cx).secOff = cx.secOff ∧ (SCx.saveLen t cx).trace = cx.trace ∧
    (SCx.saveLen t cx).lenVar = cx.startLen + cx.secOff + t.diff := by
  have hst := h.stored
  unfold SCx.saveLen
  split
  · refine ⟨⟨h.good, h.sec, h.len, h.nonneg, h.stored, h.mask, h.val⟩, rfl, rfl, rfl, rfl, rfl, ?_⟩
    show cx.lenVar = _; omega
  · refine ⟨⟨h.good, h.sec, h.len, h.nonneg, rfl, h.mask, h.val⟩, rfl, rfl, rfl, rfl, rfl, ?_⟩
    show cx.startLen + _ = _; omega

theorem step_compiled (hn : t.noop = false) :
    SCx.step t cx =
      match (if 0 < t.out then t.constOut else none) with
      | some c =>
        if t.inp + 1 < t.out then none else
        ((cx.vs.dropTop ((t.inp : Int) + 1 - t.out)).bind fun vs =>
          ({ SCx.saveLen t cx with vs, lenOff := 0 - ((t.inp : Int) + 1 - t.out) } : SCx E).push c).map fun cx =>
            { cx with secOff := cx.secOff + t.diff }
      | none =>
        if t.lower.leaves then SCx.body t (SCx.saveLen t cx)
        else ((SCx.body t (SCx.saveLen t cx)).bind (SCx.sync t)).map fun cx =>
          { cx with secOff := cx.secOff + t.diff } := by
  unfold SCx.step SCx.saveLen
  by_cases h : cx.secOff + t.diff = cx.storedOff
  · simp only [hn, if_false, Bool.false_eq_true, h, if_true]
    generalize (if 0 < t.out then t.constOut else none) = o
    cases o <;> rfl
  · simp only [hn, if_false, Bool.false_eq_true, h]
    generalize (if 0 < t.out then t.constOut else none) = o
    cases o <;> rfl

theorem mask_length (hok : Ok t S) (hm : G.length = S.length) :
    (maskNext t G).length = (next t S).length := by
  have h1 := hok.results; have h2 := hok.operands; have h3 := hok.shape
  have hl : (next t S).length = S.length - t.inp + t.out := by
    have := next_length hok; omega
  rw [hl]
  unfold maskNext
  cases hlow : t.lower with
  | dup n =>
    simp only [pushed, hlow, List.length_cons, List.length_take] at h1 h3
    simp only
    split
    · simp; omega
    · split
      · simp; omega
      · simp; omega
  | exchange n m =>
    simp only [pushed, hlow, List.length_set, List.length_take] at h1 h3
    simp only
    split
    · simp; omega
    · split
      · simp; omega
      · simp; omega
  | _ =>
    simp only
    split
    · split
      · simp; omega
      · simp; omega
    · split
      · simp; omega
      · simp; omega

/-- All lowerings that stay in their section. -/
theorem body_ok (hc : compiled t = true) (hlv : t.lower.leaves = false) (h : At t cx S G)
    (hr : Readable t G) : BodyOk t cx S (maskNext t G) := by
  have hcc := hc
  unfold compiled at hcc
  have hn : t.noop = false := by
    cases hx : t.noop
    · rfl
    · rw [hx] at hcc; simp at hcc
  have hco : ¬ (0 < t.out ∧ t.constOut.isSome = true) := by
    rw [hn] at hcc
    rintro ⟨h1, h2⟩
    rw [h2] at hcc; simp at hcc; omega
  unfold maskNext
  simp only [hn, Bool.false_eq_true, if_false, hco]
  cases hlow : t.lower with
  | nop => exact body_nop hlow h
  | popIgnore => exact body_popIgnore hlow h
  | inline => exact body_inline hlow hc h hr
  | fold c => exact body_fold hlow h
  | dup n => exact body_dup hlow h
  | exchange n m => exact body_exchange hlow h
  | builtin => exact body_builtin hlow hc h hr
  | builtinTop => exact body_builtinTop hlow hc h
  | loadConst => exact body_loadConst hlow hc h
  | keccakConst o l => exact body_keccak hlow hc h
  | expInline => exact body_expInline hlow hc h hr
  | expFold c => exact body_expFold hlow hc h hr
  | suspend => rw [hlow] at hlv; simp [Lower.leaves] at hlv
  | branch a b c => rw [hlow] at hlv; simp [Lower.leaves] at hlv

theorem not_suspend (hlv : t.lower.leaves = false) : t.lower ≠ .suspend := by
  intro h; rw [h] at hlv; simp [Lower.leaves] at hlv

theorem step_body (hn : t.noop = false) (hco : ¬ (0 < t.out ∧ t.constOut.isSome = true))
    (hlv : t.lower.leaves = false) (h : Inv cx S G) (hok : Ok t S)
    (hin : (t.inp : Int) ≤ cx.vs.top - cx.vs.base)
    (hout : cx.vs.top - t.inp + t.out - cx.vs.base ≤ cx.vs.cap) (hr : Readable t G) :
    ∃ cx', SCx.step t cx = some cx' ∧ StepOk t cx cx' S G := by
  obtain ⟨hi, hlo, hvs, hsl, hso, htr, hlv'⟩ := saveLen_ok (t := t) h
  have hc : compiled t = true := by
    unfold compiled; rw [hn]
    cases hx : t.constOut with
    | none => simp
    | some c =>
      have : ¬ 0 < t.out := fun h0 => hco ⟨h0, by rw [hx]; rfl⟩
      simp [this]
  obtain ⟨c1, e1, f1, t1, tr1, g1, v1⟩ := body_ok hc hlv ⟨hi, hok, hlo, by rw [hvs]; exact hin,
    by rw [hvs]; exact hout⟩ hr
  have hd := diff_eq (not_suspend hlv)
  have hsec := h.sec; have hlen := h.len; have hnl := next_length hok
  rw [hvs] at t1
  have e : SCx.step t cx = some { c1 with secOff := c1.secOff + t.diff } := by
    rw [step_compiled hn]
    have : (if 0 < t.out then t.constOut else none) = none := by
      split
      · rename_i h0
        cases hx : t.constOut with
        | none => rfl
        | some c => exact absurd ⟨h0, by rw [hx]; rfl⟩ hco
      · rfl
    rw [this]
    simp only [hlv, Bool.false_eq_true, if_false]
    rw [e1]; rfl
  have hsl' : c1.startLen = cx.startLen := f1.startLen.trans hsl
  have hlvv : c1.lenVar = (next t S).length := by rw [f1.lenVar, hlv']; omega
  have hsecc : c1.secOff = cx.secOff := f1.secOff.trans hso
  refine ⟨_, e, ⟨⟨g1, ?_, ?_, ?_, ?_, mask_length hok h.mask, v1⟩, f1.base.trans (by rw [hvs]), f1.cap.trans (by rw [hvs]), hsl', t1, ?_,
    fun _ => hlvv⟩⟩
  · show c1.secOff + t.diff = c1.vs.top; omega
  · show c1.startLen + c1.vs.top = _; omega
  · show 0 ≤ c1.startLen + c1.vs.base
    rw [hsl', f1.base, hvs]; exact h.nonneg
  · show c1.lenVar = c1.startLen + c1.storedOff
    have := hi.stored
    rw [f1.lenVar, f1.storedOff, hsl', this, hsl]
  · show c1.trace = _; rw [tr1, htr]

theorem noop_events (hn : t.noop = true) : events t S = [] := by
  unfold events compiled; rw [hn]; simp

theorem const_events (h0 : 0 < t.out) {c : Word} (hc : t.constOut = some c) : events t S = [] := by
  unfold events compiled; rw [hc]; simp [h0]

theorem step_const (hn : t.noop = false) (h0 : 0 < t.out) {c : Word} (hco : t.constOut = some c)
    (h : Inv cx S G) (hok : Ok t S)
    (hin : (t.inp : Int) ≤ cx.vs.top - cx.vs.base)
    (hout : cx.vs.top - t.inp + t.out - cx.vs.base ≤ cx.vs.cap) :
    ∃ cx', SCx.step t cx = some cx' ∧ StepOk t cx cx' S G := by
  obtain ⟨hi, hlo, hvs, hsl, hso, htr, hlv'⟩ := saveLen_ok (t := t) h
  obtain ⟨hp, hns, hsh⟩ := hok.constOut c h0 hco
  have hd := diff_eq hns
  have hsec := h.sec; have hlen := h.len; have hnl := next_length hok
  have hres := hok.results
  have ho1 : t.out ≤ t.inp + 1 := by
    rcases hsh with h1 | ⟨n, h1⟩
    · omega
    · simp only [pushed, h1, List.length_cons, List.length_take] at hres; omega
  have hdrop : cx.vs.dropTop ((t.inp : Int) + 1 - t.out) =
      some { cx.vs with top := cx.vs.top - ((t.inp : Int) + 1 - t.out) } := by
    unfold VStack.dropTop; rw [if_pos (by omega)]
  have g0 : Good { cx.vs with top := cx.vs.top - ((t.inp : Int) + 1 - t.out) } := by
    refine ⟨?_, ?_, ?_⟩
    · show cx.vs.base ≤ cx.vs.top - ((t.inp : Int) + 1 - t.out); omega
    · have := h.good.hi
      show cx.vs.top - ((t.inp : Int) + 1 - t.out) - cx.vs.base ≤ cx.vs.cap; omega
    · intro i i0 i1
      have i1 : i < cx.vs.top - ((t.inp : Int) + 1 - t.out) - cx.vs.base := i1
      exact h.good.set i i0 (by omega)
  obtain ⟨c1, e1, f1, t1, tr1, g1, _, v1⟩ := push_ok (cx := { SCx.saveLen t cx with
      vs := { cx.vs with top := cx.vs.top - ((t.inp : Int) + 1 - t.out) }
      lenOff := 0 - ((t.inp : Int) + 1 - t.out) }) g0 (by
        show cx.vs.top - ((t.inp : Int) + 1 - t.out) - cx.vs.base < cx.vs.cap; omega) c
  have t1 : c1.vs.top = cx.vs.top - ((t.inp : Int) + 1 - t.out) + 1 := t1
  have v1 : ∀ off, valAt c1 off = if off = cx.vs.top - ((t.inp : Int) + 1 - t.out) then c else valAt cx off := by
    intro off
    rw [v1 off]
    show (if off = cx.vs.top - ((t.inp : Int) + 1 - t.out) then c else _) = _
    split
    · rfl
    · unfold valAt SCx.saveLen
      split <;> rfl
  have e : SCx.step t cx = some { c1 with secOff := c1.secOff + t.diff } := by
    rw [step_compiled hn, if_pos h0, hco]
    simp only
    rw [if_neg (by omega), hdrop]
    simp only [Option.bind_some]
    rw [e1]; rfl
  have hsl' : c1.startLen = cx.startLen := f1.startLen.trans hsl
  have hsecc : c1.secOff = cx.secOff := f1.secOff.trans hso
  have hlvv : c1.lenVar = (next t S).length := by rw [f1.lenVar]; show (SCx.saveLen t cx).lenVar = _; omega
  refine ⟨_, e, ⟨⟨g1, ?_, ?_, ?_, ?_, mask_length hok h.mask, ?_⟩, f1.base, f1.cap, hsl', ?_, ?_,
    fun _ => hlvv⟩⟩
  · show c1.secOff + t.diff = c1.vs.top; omega
  · show c1.startLen + c1.vs.top = _; omega
  · show 0 ≤ c1.startLen + c1.vs.base
    rw [hsl', f1.base]; exact h.nonneg
  · show c1.lenVar = c1.startLen + c1.storedOff
    have := hi.stored
    rw [f1.lenVar, f1.storedOff, hsl']
    show (SCx.saveLen t cx).lenVar = _; rw [this, hsl]
  · intro d w hg hw
    show valAt c1 (c1.vs.top - 1 - d) = w
    rcases hsh with h1 | ⟨n, h1⟩
    · have hm : maskNext t G = List.replicate t.out true ++ G.drop t.inp := by
        unfold maskNext; rw [hn, hco]
        simp only [Bool.false_eq_true, if_false, h0, Option.isSome_some, and_self, if_true]
        cases hlow : t.lower with
        | dup n =>
          have hs := hok.shape; rw [hlow] at hs
          obtain ⟨hs1, hs2⟩ : 1 ≤ n ∧ t.inp = n := hs
          have hop := hok.operands
          simp only [pushed, hlow, List.length_cons, List.length_take] at hres
          omega
        | _ => rfl
      rw [hm] at hg
      refine replace_val (cx' := c1) true h hok (by omega) (fun _ d w hw => ?_) (fun off hoff => ?_) d w hg hw
      · cases d with
        | zero =>
          rw [← List.head?_eq_getElem?, hp] at hw
          rw [v1, if_pos (by omega)]; exact Option.some.inj hw
        | succ d =>
          rw [List.getElem?_eq_none (by omega)] at hw; simp at hw
      · rw [v1, if_neg (by omega)]
    · have hm : maskNext t G = true :: G := by
        unfold maskNext; rw [hn, hco]
        simp [h0, h1]
      have hs := hok.shape; rw [h1] at hs
      obtain ⟨hs1, hs2⟩ : 1 ≤ n ∧ t.inp = n := hs
      have hop := hok.operands
      have hnx : next t S = c :: S := by
        simp only [pushed, h1, List.head?_cons, Option.some.injEq] at hp
        unfold next pushed
        rw [h1]
        simp only
        rw [hp, List.cons_append, List.take_append_drop]
      have ho2 : t.out = n + 1 := by
        simp only [pushed, h1, List.length_cons, List.length_take] at hres; omega
      rw [hm] at hg; rw [hnx] at hw
      cases d with
      | zero =>
        simp only [List.getElem?_cons_zero, Option.some.injEq] at hw
        rw [v1, if_pos (by omega)]; exact hw
      | succ d =>
        rw [List.getElem?_cons_succ] at hg hw
        have := h.val d w hg hw
        rw [v1, if_neg (by omega), ← this]
        congr 1; omega
  · show c1.vs.top = _; omega
  · show c1.trace = _
    rw [tr1, const_events h0 hco]; exact htr

/-- The values after skipping an instruction. -/
theorem noop_val {c1 : SCx E} (hn : t.noop = true) (h : Inv cx S G) (hok : Ok t S)
    (htop : c1.vs.top = cx.vs.top - t.inp + t.out)
    (v1 : ∀ off, off < cx.vs.top → valAt c1 off = valAt cx off)
    (vc : ∀ c, t.out = t.inp + 1 → t.constOut = some c → valAt c1 cx.vs.top = c)
    (d : Nat) (w : Word) (hg : (maskNext t G)[d]? = some true) (hw : (next t S)[d]? = some w) :
    valAt c1 (c1.vs.top - 1 - d) = w := by
  have hop := hok.operands
  have hres := hok.results
  have hsh := hok.shape
  have hlen := h.mask
  -- a single new word on top of an unchanged stack
  have push1 : ∀ x, t.out = t.inp + 1 → next t S = x :: S →
      (∀ c, t.constOut = some c → x = c) →
      ∀ (d : Nat) (w : Word), (t.constOut.isSome :: G)[d]? = some true → (next t S)[d]? = some w →
        valAt c1 (c1.vs.top - 1 - d) = w := by
    intro x ho hnx hxc d w hg hw
    rw [hnx] at hw
    cases d with
    | zero =>
      simp only [List.getElem?_cons_zero, Option.some.injEq] at hw hg
      obtain ⟨c, hc⟩ := Option.isSome_iff_exists.1 hg
      have := vc c ho hc
      rw [← hw, hxc c hc, ← this]
      congr 1; omega
    | succ d =>
      rw [List.getElem?_cons_succ] at hg hw
      have := h.val d w hg hw
      rw [v1 _ (by omega), ← this]
      congr 1; omega
  have repl : ∀ (d : Nat) (w : Word), (List.replicate t.out false ++ G.drop t.inp)[d]? = some true →
      (next t S)[d]? = some w → valAt c1 (c1.vs.top - 1 - d) = w :=
    replace_val false h hok htop (by simp) (fun off hoff => v1 off (by omega))
  unfold maskNext at hg
  simp only [hn, if_true] at hg
  have gen : (if t.inp = 0 ∧ t.out = 1 then t.constOut.isSome :: G
           else List.replicate t.out false ++ G.drop t.inp)[d]? = some true →
      valAt c1 (c1.vs.top - 1 - d) = w := by
    intro hg
    split at hg
    · rename_i hio
      obtain ⟨hi0, ho1⟩ := hio
      obtain ⟨x, hx⟩ : ∃ x, pushed t (S.take t.inp) = [x] := by
        match hp : pushed t (S.take t.inp), hres with
        | [x], _ => exact ⟨x, rfl⟩
        | [], hr => simp at hr; omega
        | _ :: _ :: _, hr => simp at hr; omega
      refine push1 x (by omega) ?_ ?_ d w hg hw
      · unfold next; rw [hx, hi0]; rfl
      · intro c hc
        have := (hok.constOut c (by omega) hc).1
        rw [hx] at this; simpa using this
    · exact repl d w hg hw
  cases hlow : t.lower with
  | dup n =>
    rw [hlow] at hg hsh
    simp only at hg hsh
    simp only [pushed, hlow, List.length_cons, List.length_take] at hres
    refine push1 ((S.take t.inp).getD (n - 1) 0) (by omega) ?_ ?_ d w hg hw
    · unfold next pushed; rw [hlow]
      simp only [List.cons_append, List.take_append_drop]
    · intro c hc
      have := (hok.constOut c (by omega) hc).1
      simp only [pushed, hlow, List.head?_cons, Option.some.injEq] at this
      exact this
  | exchange n m =>
    rw [hlow] at hg hsh
    simp only at hg hsh
    simp only [pushed, hlow, List.length_set, List.length_take] at hres
    have hd1 : d ≠ n + m := by
      intro e; subst e
      rw [List.getElem?_set_self' ] at hg
      cases hx : (G.set n false)[n + m]? <;> rw [hx] at hg <;> simp at hg
    rw [List.getElem?_set_ne (by omega)] at hg
    have hd2 : d ≠ n := by
      intro e; subst e
      rw [List.getElem?_set_self'] at hg
      cases hx : G[d]? <;> rw [hx] at hg <;> simp at hg
    rw [List.getElem?_set_ne (by omega)] at hg
    have hw' : S[d]? = some w := by
      rw [← hw]
      unfold next pushed; rw [hlow]
      simp only
      rcases Nat.lt_or_ge d t.inp with hd | hd
      · rw [List.getElem?_append_left (by simp; omega), List.getElem?_set_ne (by omega),
          List.getElem?_set_ne (by omega), List.getElem?_take, if_pos hd]
      · rw [List.getElem?_append_right (by simp; omega), List.getElem?_drop]
        congr 1; simp; omega
    have := h.val d w hg hw'
    rw [v1 _ (by omega), ← this]
    congr 1; omega
  | suspend => have := hok.noop hn; rw [hlow] at this; simp [Lower.leaves] at this
  | branch a b c => have := hok.noop hn; rw [hlow] at this; simp [Lower.leaves] at this
  | _ => rw [hlow] at hg; exact gen hg

theorem step_noop (hn : t.noop = true) (h : Inv cx S G) (hok : Ok t S)
    (hin : (t.inp : Int) ≤ cx.vs.top - cx.vs.base)
    (hout : cx.vs.top - t.inp + t.out - cx.vs.base ≤ cx.vs.cap) :
    ∃ cx', SCx.step t cx = some cx' ∧ StepOk t cx cx' S G := by
  have hd := diff_eq (not_suspend (hok.noop hn))
  have hsec := h.sec; have hlen := h.len; have hnl := next_length hok
  have key : ∃ c1, SCx.syncNoop t { cx with lenOff := 0 } = some c1 ∧ Frame cx c1 ∧
      c1.vs.top = cx.vs.top - t.inp + t.out ∧ c1.trace = cx.trace ∧ Good c1.vs ∧
      (∀ off, off < cx.vs.top → valAt c1 off = valAt cx off) ∧
      (∀ c, t.out = t.inp + 1 → t.constOut = some c → valAt c1 cx.vs.top = c) := by
    unfold SCx.syncNoop
    simp only
    by_cases h1 : cx.vs.top = cx.secOff + t.diff
    · rw [if_pos h1]
      exact ⟨_, rfl, ⟨rfl, rfl, rfl, rfl, rfl, rfl⟩, by simp only; omega, rfl, h.good, fun _ _ => rfl,
        fun c hc => by omega⟩
    · rw [if_neg h1]
      by_cases h2 : cx.secOff + t.diff < cx.vs.top
      · rw [if_pos h2]
        have e : cx.vs.dropTop (cx.vs.top - (cx.secOff + t.diff)) =
            some { cx.vs with top := cx.vs.top - (cx.vs.top - (cx.secOff + t.diff)) } := by
          unfold VStack.dropTop; rw [if_pos (by omega)]
        rw [e]
        refine ⟨_, rfl, ⟨rfl, rfl, rfl, rfl, rfl, rfl⟩, by simp only; omega, rfl, ⟨?_, ?_, ?_⟩, fun _ _ => rfl,
          fun c hc => by omega⟩
        · show cx.vs.base ≤ cx.vs.top - (cx.vs.top - (cx.secOff + t.diff)); omega
        · have := h.good.hi
          show cx.vs.top - (cx.vs.top - (cx.secOff + t.diff)) - cx.vs.base ≤ cx.vs.cap; omega
        · intro i i0 i1
          have : i < cx.vs.top - (cx.vs.top - (cx.secOff + t.diff)) - cx.vs.base := i1
          exact h.good.set i i0 (by omega)
      · rw [if_neg h2]
        by_cases h3 : cx.secOff + t.diff - cx.vs.top = 1 ∧ t.constOut.isSome = true
        · obtain ⟨c, hc⟩ := Option.isSome_iff_exists.1 h3.2
          rw [if_pos h3.1, hc]
          obtain ⟨c1, e1, f1, t1, tr1, g1, _, v1⟩ := push_ok h.good (by omega) c
          simp only
          obtain ⟨vs, hvs, hc1⟩ : ∃ vs, cx.vs.pushSlot (.virt c) = some vs ∧
              c1 = { cx with vs, lenOff := cx.lenOff + 1 } := by
            unfold SCx.push at e1
            cases hx : cx.vs.pushSlot (.virt c) with
            | none => rw [hx] at e1; simp at e1
            | some vs => rw [hx] at e1; simp at e1; exact ⟨vs, rfl, e1.symm⟩
          rw [hvs]
          subst hc1
          refine ⟨_, rfl, ⟨f1.base, f1.cap, rfl, rfl, rfl, rfl⟩, ?_, rfl, g1, fun off hoff => ?_, fun c' _ hc' => ?_⟩
          · have t1 : vs.top = cx.vs.top + 1 := t1
            show vs.top = _; omega
          · have := v1 off; rw [if_neg (by omega)] at this; exact this
          · have := v1 cx.vs.top; rw [if_pos rfl] at this
            have e := Option.some.inj hc'
            rw [← e]; exact this
        · have : (if cx.secOff + t.diff - cx.vs.top = 1 then t.constOut else none) = none := by
            split
            · cases hx : t.constOut with
              | none => rfl
              | some c => exact absurd ⟨‹_›, by rw [hx]; rfl⟩ h3
            · rfl
          rw [this]
          obtain ⟨s', e, b, c, tt, g, p⟩ := pushMems_ok (cx.secOff + t.diff - cx.vs.top).toNat cx.vs h.good (by omega)
          simp only [e, Option.map_some]
          refine ⟨_, rfl, ⟨b, c, rfl, rfl, rfl, rfl⟩, by simp only; omega, rfl, g, fun off hoff => ?_,
            fun c ho hc => absurd ⟨by omega, by rw [hc]; rfl⟩ h3⟩
          unfold valAt; simp only
          rw [p, if_neg (by omega)]
  obtain ⟨c1, e1, f1, t1, tr1, g1, v1, vc⟩ := key
  have e : SCx.step t cx = some { c1 with secOff := c1.secOff + t.diff } := by
    unfold SCx.step; simp only [hn, if_true, e1]; rfl
  refine ⟨_, e, ⟨⟨g1, ?_, ?_, ?_, ?_, mask_length hok h.mask, ?_⟩, f1.base, f1.cap, f1.startLen, t1, ?_,
    by rw [hn]; simp⟩⟩
  · show c1.secOff + t.diff = c1.vs.top; rw [f1.secOff]; omega
  · show c1.startLen + c1.vs.top = _; rw [f1.startLen]; omega
  · show 0 ≤ c1.startLen + c1.vs.base
    rw [f1.startLen, f1.base]; exact h.nonneg
  · show c1.lenVar = c1.startLen + c1.storedOff
    rw [f1.lenVar, f1.storedOff, f1.startLen]; exact h.stored
  · exact fun d w hg hw => noop_val hn h hok t1 v1 vc d w hg hw
  · show c1.trace = _; rw [tr1, noop_events hn]; rfl

/-- One instruction that stays in its section. -/
theorem step_ok (hlv : t.lower.leaves = false) (h : Inv cx S G) (hok : Ok t S)
    (hin : (t.inp : Int) ≤ cx.vs.top - cx.vs.base)
    (hout : cx.vs.top - t.inp + t.out - cx.vs.base ≤ cx.vs.cap) (hr : Readable t G) :
    ∃ cx', SCx.step t cx = some cx' ∧ StepOk t cx cx' S G := by
  cases hn : t.noop with
  | true => exact step_noop hn h hok hin hout
  | false =>
    by_cases hc : 0 < t.out ∧ t.constOut.isSome = true
    · obtain ⟨c, hco⟩ := Option.isSome_iff_exists.1 hc.2
      exact step_const hn hc.1 hco h hok hin hout
    · exact step_body hn hc hlv h hok hin hout hr

/-- One pop of a branch operand, read or ignored. -/
def SCx.popOne (t : TInst E) (rd : Bool) (cx : SCx E) : Option (Option Word × SCx E) :=
  if rd then (SCx.popn t 1 cx).map fun r => (r.1[0]?, r.2)
  else (cx.popIgnore 1).map fun cx => (none, cx)

theorem popOne_ok {cx : SCx E} (t : TInst E) (rd : Bool) (k : Nat) (g : Good cx.vs)
    (hb : 1 ≤ cx.vs.top - cx.vs.base) (hlo : cx.lenOff = -(k : Int)) :
    ∃ cx', SCx.popOne t rd cx =
        some (if rd then some ((t.constIn k).getD (valAt cx (cx.vs.top - 1))) else none, cx') ∧
      Frame cx cx' ∧ cx'.vs.top = cx.vs.top - 1 ∧ cx'.trace = cx.trace ∧ Good cx'.vs ∧
      cx'.lenOff = -((k + 1 : Nat) : Int) ∧ ∀ off, valAt cx' off = valAt cx off := by
  unfold SCx.popOne
  cases rd with
  | true =>
    obtain ⟨c1, e1, f1, t1, tr1, g1, lo1, v1⟩ := popn_ok t 1 cx g (by omega)
    refine ⟨c1, ?_, f1, by omega, tr1, g1, by omega, v1⟩
    rw [if_pos rfl, e1]
    have : (-cx.lenOff).toNat = k := by omega
    rw [this]
    simp [readList]
  | false =>
    obtain ⟨c1, e1, f1, t1, tr1, g1, lo1, v1⟩ := popIgnore_ok g 1 (by omega)
    refine ⟨c1, ?_, f1, by omega, tr1, g1, by omega, v1⟩
    rw [if_neg (by simp), e1]; rfl

theorem step_branch {rt j rc : Bool} (hl : t.lower = .branch rt j rc) (h : Inv cx S G) (hok : Ok t S)
    (hin : (t.inp : Int) ≤ cx.vs.top - cx.vs.base) (hr : Readable t G) :
    ∃ cx', SCx.step t cx = some cx' ∧ HoldsM cx' (next t S) (maskNext t G) ∧
      cx'.trace = events t S ++ cx.trace := by
  have hlv : t.lower.leaves = true := by rw [hl]; rfl
  have hn : t.noop = false := by
    cases hx : t.noop
    · rfl
    · rw [hok.noop hx] at hlv; simp at hlv
  have ho := hok.results; simp only [pushed, hl, List.length_nil] at ho
  have hc : compiled t = true := by unfold compiled; rw [hn, ← ho]; rfl
  have hs := hok.shape; rw [hl] at hs
  have hs : t.inp = if j then 2 else 1 := hs
  have hrr := hr hc; simp only [hl] at hrr
  have hop := hok.operands
  have hnl := next_length hok
  have hsec := h.sec; have hlen := h.len
  have hd := diff_eq (t := t) (by rw [hl]; simp)
  obtain ⟨hi, hlo, hvs, hsl, hso, htr, hlv'⟩ := saveLen_ok (t := t) h
  have hi1 : 1 ≤ t.inp := by rw [hs]; split <;> omega
  -- the value read for operand `d`
  have rd : ∀ d, d < t.inp → ((t.constIn d).isSome = true ∨ G[d]? = some true) →
      some ((t.constIn d).getD (valAt cx (cx.vs.top - 1 - d))) = S[d]? := by
    intro d hd hx
    refine (operand_val h hok d hd ?_).symm
    rcases hx with hx | hx
    · rw [hx]; rfl
    · rw [List.getD_eq_getElem?_getD, hx]; simp
  obtain ⟨c1, e1, f1, t1, tr1, g1, lo1, v1⟩ := popOne_ok (cx := SCx.saveLen t cx) t rt 0 hi.good
    (by rw [hvs]; omega) hlo
  have hvv : ∀ off, valAt (SCx.saveLen t cx) off = valAt cx off := by
    intro off; unfold valAt SCx.saveLen; split <;> rfl
  rw [hvs, hvv] at e1; rw [hvs] at t1
  have step_e : SCx.step t cx = (SCx.popOne t rt (SCx.saveLen t cx)).bind fun r =>
      (if j then SCx.popOne t rc r.2 else some (none, r.2)).map fun q =>
        ({ q.2 with trace := .branched r.1 q.1 :: q.2.trace } : SCx E).materializeLive := by
    rw [step_compiled hn, ← ho]
    simp only [Nat.lt_irrefl, if_false, hlv, if_true]
    unfold SCx.body; rw [hl]; rfl
  obtain ⟨c2, e2, f2, t2, tr2, g2, v2⟩ : ∃ c2, (if j then SCx.popOne t rc c1 else some (none, c1)) =
      some (if j && rc then S[1]? else none, c2) ∧ Frame c1 c2 ∧ c2.vs.top = cx.vs.top - t.inp ∧
      c2.trace = c1.trace ∧ Good c2.vs ∧ ∀ off, valAt c2 off = valAt c1 off := by
    cases j with
    | false =>
      refine ⟨c1, rfl, .refl c1, ?_, rfl, g1, fun _ => rfl⟩
      simp at hs; omega
    | true =>
      simp only [if_true] at hs
      obtain ⟨c2, e2, f2, t2, tr2, g2, _, v2⟩ := popOne_ok t rc 1 g1
        (by rw [t1, f1.base, hvs]; omega) (by simpa using lo1)
      refine ⟨c2, ?_, f2, by omega, tr2, g2, v2⟩
      rw [if_pos rfl, e2, v1, hvv, t1]
      cases rc with
      | false => rfl
      | true =>
        simp only [if_true, Bool.and_self]
        rw [← rd 1 (by omega) (hrr.2 rfl rfl)]
        congr 6
  have e : SCx.step t cx = some ({ c2 with
      trace := .branched (if rt then S[0]? else none) (if j && rc then S[1]? else none) :: c2.trace } : SCx E).materializeLive := by
    rw [step_e, e1]
    simp only [Option.bind_some]
    rw [e2]
    simp only [Option.map_some]
    cases rt with
    | false => rfl
    | true =>
      have := rd 0 hi1 (hrr.1 rfl)
      simp only [Int.natCast_zero, Int.sub_zero] at this
      simp only [if_true]; rw [this]
  have hM : maskNext t G = G.drop t.inp := by
    unfold maskNext; rw [hn, ← ho, hl]; simp
  have hN : next t S = S.drop t.inp := by
    unfold next pushed; rw [hl]; rfl
  have hsl2 : c2.startLen = cx.startLen := f2.startLen.trans (f1.startLen.trans hsl)
  refine ⟨_, e, ⟨?_, ?_⟩, ?_⟩
  · show c2.lenVar = _
    rw [f2.lenVar, f1.lenVar, hlv']; omega
  · intro d w hg hw
    have hdl : d < (next t S).length := by
      rcases Nat.lt_or_ge d (next t S).length with h | h
      · exact h
      · rw [List.getElem?_eq_none h] at hw; simp at hw
    have := live_mem ({ c2 with trace := .branched (if rt then S[0]? else none) (if j && rc then S[1]? else none) :: c2.trace } : SCx E) (cx.vs.top - t.inp - 1 - d)
      (by show _ < c2.vs.top; omega)
    rw [show (((next t S).length : Nat) : Int) - 1 - d =
      c2.startLen + (cx.vs.top - t.inp - 1 - d) by omega]
    refine this.trans ?_
    show valAt c2 _ = w
    rw [v2, v1, hvv]
    rw [hM, List.getElem?_drop] at hg
    rw [hN, List.getElem?_drop] at hw
    rw [← h.val _ _ hg hw]
    congr 1; omega
  · show _ :: c2.trace = _
    rw [tr2, tr1, htr]
    simp [events, hc, hl]

theorem step_suspend (hl : t.lower = .suspend) (h : Inv cx S G) (hok : Ok t S)
    (hin : (t.inp : Int) ≤ cx.vs.top - cx.vs.base) (hr : Readable t G) :
    ∃ cx', SCx.step t cx = some cx' ∧ HoldsM cx' (next t S) (maskNext t G) ∧
      cx'.trace = events t S ++ cx.trace := by
  have hlv : t.lower.leaves = true := by rw [hl]; rfl
  have hn : t.noop = false := by
    cases hx : t.noop
    · rfl
    · rw [hok.noop hx] at hlv; simp at hlv
  have ho := hok.results; simp only [pushed, hl] at ho
  have hs := hok.shape; rw [hl] at hs
  have hs : t.out = 1 := hs
  have hco : t.constOut = none := by
    cases hx : t.constOut with
    | none => rfl
    | some c => exact absurd hl (hok.constOut c (by omega) hx).2.1
  have hc : compiled t = true := by unfold compiled; rw [hn, hco]; simp
  have hrr := hr hc; simp only [hl] at hrr
  have hop := hok.operands
  have hnl := next_length hok
  have hsec := h.sec; have hlen := h.len; have hmask := h.mask
  have hd : t.diff = -(t.inp : Int) := by unfold TInst.diff; rw [if_pos hl]; omega
  obtain ⟨hi, hlo, hvs, hsl, hso, htr, hlv'⟩ := saveLen_ok (t := t) h
  have hvv : ∀ off, valAt (SCx.saveLen t cx) off = valAt cx off := by
    intro off; unfold valAt SCx.saveLen; split <;> rfl
  have ha := memArgs_eq hi hok hrr.1
  obtain ⟨f, tp, tr, g, v, p, m⟩ := spAfterInputs_ok t (SCx.saveLen t cx) hi.sec
  generalize hcA : SCx.spAfterInputs t (SCx.saveLen t cx) = cA at *
  rw [hvs] at tp v
  obtain ⟨cB, hcB⟩ : ∃ cB, cB = SCx.ran { cA with
      mem := SCx.writeOut { t with out := 0 } (cA.startLen + cA.secOff - t.inp) [] cA.mem }
      (t.act (S.take t.inp)).2 := ⟨_, rfl⟩
  have hBv : ∀ off, off < cx.vs.top - t.inp → valAt cB off = valAt cx off := by
    intro off hoff
    rw [← hvv, ← v off hoff, hcB]
    unfold valAt SCx.ran
    simp only
    congr 1
    unfold SCx.writeOut
    rw [if_neg (by simp only; omega), if_neg (by
      have : cA.secOff = cx.secOff := f.secOff.trans hso
      simp only; omega)]
  have hBt : cB.vs.top = cx.vs.top := by rw [hcB]; exact tp
  have hBs : cB.startLen = cx.startLen := by rw [hcB]; exact f.startLen.trans hsl
  have hBl : cB.lenVar = S.length - t.inp := by
    rw [hcB]; show cA.lenVar = _; rw [f.lenVar, hlv']; omega
  have hBtr : cB.trace = .ran (t.act (S.take t.inp)).2 :: cx.trace := by
    rw [hcB]; show _ :: cA.trace = _; rw [tr, htr]
  have hmem : ∀ (d : Nat) (w : Word), (G.drop t.inp)[d]? = some true → (S.drop t.inp)[d]? = some w →
      cB.materializeLive.mem (S.length - t.inp - 1 - d) = w := by
    intro d w hg hw
    have hdl : d < (S.drop t.inp).length := by
      rcases Nat.lt_or_ge d (S.drop t.inp).length with h | h
      · exact h
      · rw [List.getElem?_eq_none h] at hw; simp at hw
    rw [List.length_drop] at hdl
    have := live_mem cB (cx.vs.top - t.inp - 1 - d) (by omega)
    rw [show (S.length : Int) - t.inp - 1 - d = cB.startLen + (cx.vs.top - t.inp - 1 - d) by omega, this,
      hBv _ (by omega)]
    rw [List.getElem?_drop] at hg hw
    rw [← h.val _ _ hg hw]
    congr 1; omega
  have hLl : cB.materializeLive.lenVar = S.length - t.inp := hBl
  have hstack : ((List.range cB.materializeLive.lenVar.toNat).map fun (k : Nat) => cB.materializeLive.mem k) =
      (S.drop t.inp).reverse := by
    rw [hLl]
    apply List.ext_getElem?
    intro k
    rw [List.getElem?_map]
    by_cases hk : k < S.length - t.inp
    · rw [List.getElem?_range (by omega), List.getElem?_reverse (by rw [List.length_drop]; omega)]
      have hx : (S.drop t.inp).length - 1 - k < (S.drop t.inp).length := by rw [List.length_drop]; omega
      rw [List.getElem?_eq_getElem hx]
      have hgx : (G.drop t.inp)[(S.drop t.inp).length - 1 - k]? = some true := by
        rw [List.getElem?_drop]
        exact hrr.2 _ (by omega) (by rw [List.length_drop]; omega)
      have := hmem _ _ hgx (List.getElem?_eq_getElem hx)
      rw [← this]
      simp only [Option.map_some]
      congr 2
      rw [List.length_drop]; omega
    · rw [List.getElem?_eq_none (by simp; omega), List.getElem?_eq_none (by simp; omega)]; rfl
  have e : SCx.step t cx = some { cB.materializeLive with
      trace := .suspended (S.drop t.inp).reverse :: cB.trace
      mem := fun a => if a = cB.materializeLive.lenVar then (t.act (S.take t.inp)).1.headD 0
        else if cB.materializeLive.lenVar < a then t.clob a else cB.materializeLive.mem a
      lenVar := cB.materializeLive.lenVar + 1 } := by
    rw [step_compiled hn, hco]
    have : (if 0 < t.out then (none : Option Word) else none) = none := by split <;> rfl
    rw [this]
    simp only [hlv, if_true]
    unfold SCx.body; rw [hl]
    simp only
    rw [hcA, ha]
    rw [hcB] at hstack ⊢
    rw [← hstack]
    rfl
  obtain ⟨x, hx⟩ : ∃ x, (t.act (S.take t.inp)).1 = [x] := by
    match hp : (t.act (S.take t.inp)).1, ho with
    | [x], _ => exact ⟨x, rfl⟩
    | [], ho => simp at ho; omega
    | _ :: _ :: _, ho => simp at ho; omega
  have hM : maskNext t G = true :: G.drop t.inp := by
    unfold maskNext; rw [hn, hco, hl]; simp [hs]
  have hN : next t S = x :: S.drop t.inp := by
    unfold next pushed; rw [hl]; simp only; rw [hx]; rfl
  refine ⟨_, e, ⟨?_, ?_⟩, ?_⟩
  · show cB.materializeLive.lenVar + 1 = _; rw [hLl]; omega
  · intro d w hg hw
    show (if _ = cB.materializeLive.lenVar then _ else _) = w
    rw [hM] at hg; rw [hN] at hw
    cases d with
    | zero =>
      rw [if_pos (by rw [hLl]; simp only [Int.natCast_zero]; omega), hx]
      simpa using hw
    | succ d =>
      rw [List.getElem?_cons_succ] at hg hw
      rw [if_neg (by rw [hLl]; omega), if_neg (by rw [hLl]; omega), ← hmem d w hg hw]
      congr 1; omega
  · show Ev.suspended _ :: cB.trace = _
    rw [hBtr]; simp [events, hc, hl]

/-- One instruction that leaves its section. -/
theorem step_leave (hlv : t.lower.leaves = true) (h : Inv cx S G) (hok : Ok t S)
    (hin : (t.inp : Int) ≤ cx.vs.top - cx.vs.base) (hr : Readable t G) :
    ∃ cx', SCx.step t cx = some cx' ∧ HoldsM cx' (next t S) (maskNext t G) ∧
      cx'.trace = events t S ++ cx.trace := by
  cases hlow : t.lower with
  | suspend => exact step_suspend hlow h hok hin hr
  | branch a b c => exact step_branch hlow h hok hin hr
  | _ => rw [hlow] at hlv; simp [Lower.leaves] at hlv

end Verif
