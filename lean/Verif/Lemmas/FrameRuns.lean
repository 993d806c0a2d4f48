import Verif.Lemmas.FrameCalls
/-!
Calls, creations and whole runs of nested frames.
-/
namespace Verif.Frames
open Verif.Builtins (Err satUsize satAdd)
open Verif.Spec (LogEntry Act Rules EvmFrame Ending wordsOf window pay overwrite memRanges arg callValue callEnter callLeave
  createEnter createLeave runFrame)

theorem call_eq (R : Rules) (o : Nat) (args : List Word) (dyn : Option Nat) (code : List UInt8) (s : Cx) :
    call R o args dyn code s =
      let a (k : Nat) : Word := args[k]?.getD 0
      let hasValue : Bool := o == 0xf1 || o == 0xf2
      let value := if hasValue then (a 2).toNat else 0
      let p := if hasValue then 3 else 2
      if o = 0xf1 ∧ s.static ∧ value ≠ 0 then failWith .CallNotAllowedInsideStatic s
      else callBody R o code dyn hasValue value (satUsize (a 0)) (a p) (a (p + 1)) (a (p + 2)) (a (p + 3)) s := by
  unfold call callBody
  show EStateM.bind _ _ _ = _
  unfold EStateM.bind
  dsimp only [get, getThe, MonadStateOf.get, EStateM.get]
  by_cases hc : o = 0xf1 ∧ s.static = true ∧ (if (o == 0xf1 || o == 0xf2) = true then (args[2]?.getD 0).toNat else 0) ≠ 0
  · rw [if_pos hc, if_pos hc]
  · rw [if_neg hc, if_neg hc]

theorem callEnter_eq (R : Rules) (o : Nat) (args : List Word) (dyn : Option Nat) (code : List UInt8) (f : EvmFrame)
    (ho : o = 0xf1 ∨ o = 0xf2 ∨ o = 0xf4 ∨ o = 0xfa) :
    callEnter R o args dyn code f =
      let a (k : Nat) : Word := args[k]?.getD 0
      let hasValue : Bool := o == 0xf1 || o == 0xf2
      let value := if hasValue then (a 2).toNat else 0
      let p := if hasValue then 3 else 2
      if o = 0xf1 ∧ f.static ∧ value ≠ 0 then none
      else callSpec R o code dyn value (a 0) (a p) (a (p + 1)) (a (p + 2)) (a (p + 3)) f := by
  unfold callEnter callSpec callValue
  rcases ho with rfl | rfl | rfl | rfl
  · have e : ((((0xf1 : Nat) == 0xf1 || (0xf1 : Nat) == 0xf2) && arg args 2 != 0) = true) = ((args[2]?.getD 0).toNat ≠ 0) := by
      simp [arg]
    dsimp only
    simp only [e]
    rfl
  · have e : ((((0xf2 : Nat) == 0xf1 || (0xf2 : Nat) == 0xf2) && arg args 2 != 0) = true) = ((args[2]?.getD 0).toNat ≠ 0) := by
      simp [arg]
    dsimp only
    simp only [e]
    rfl
  · rfl
  · rfl

/-- A call: the two frames are those of the EVM, and the callee's data will go where the operands say. -/
theorem call_refines {s : Cx} (h : WF s) (R : Rules) (o : Nat) (args : List Word) (dyn : Option Nat) (code : List UInt8)
    (ho : o = 0xf1 ∨ o = 0xf2 ∨ o = 0xf4 ∨ o = 0xfa) (hcode : code.length < 2 ^ 63) :
    Sat (call R o args dyn code s)
      (fun r t => Requested s t r (callEnter R o args dyn code (view s)) ∧ t.logs = s.logs ∧
        r.outStop - r.outStart = arg args ((if o = 0xf1 ∨ o = 0xf2 then 5 else 4) + 1) ∧
        (arg args ((if o = 0xf1 ∨ o = 0xf2 then 5 else 4) + 1) ≠ 0 →
          r.outStart = arg args (if o = 0xf1 ∨ o = 0xf2 then 5 else 4) ∧
          arg args (if o = 0xf1 ∨ o = 0xf2 then 5 else 4) +
            arg args ((if o = 0xf1 ∨ o = 0xf2 then 5 else 4) + 1) ≤ 32 * t.words))
      (fun t => callEnter R o args dyn code (view s) = none ∧ Kept s t ∧ t.logs = s.logs) := by
  rw [call_eq, callEnter_eq R o args dyn code _ ho]
  have hst : (view s).static = s.static := rfl
  dsimp only
  rw [hst]
  by_cases hs : o = 0xf1 ∧ s.static = true ∧ (if (o == 0xf1 || o == 0xf2) = true then (args[2]?.getD 0).toNat else 0) ≠ 0
  · rw [if_pos hs, if_pos hs]
    exact ⟨rfl, Kept.refl h, rfl⟩
  · rw [if_neg hs, if_neg hs]
    have hb := callBody_refines h R o code dyn (o == 0xf1 || o == 0xf2)
      (if (o == 0xf1 || o == 0xf2) = true then (args[2]?.getD 0).toNat else 0)
      (args[0]?.getD 0) (args[if (o == 0xf1 || o == 0xf2) = true then 3 else 2]?.getD 0)
      (args[(if (o == 0xf1 || o == 0xf2) = true then 3 else 2) + 1]?.getD 0)
      (args[(if (o == 0xf1 || o == 0xf2) = true then 3 else 2) + 2]?.getD 0)
      (args[(if (o == 0xf1 || o == 0xf2) = true then 3 else 2) + 3]?.getD 0) hcode (by
        intro hv
        by_cases hx : (o == 0xf1 || o == 0xf2) = true
        · exact hx
        · exact absurd (if_neg hx) hv)
    rcases ho with rfl | rfl | rfl | rfl <;> exact hb

theorem sat_initcode {f : Unit → M β} {P : β → Cx → Prop} {Q : Cx → Prop} {s : Cx} {R : Rules} {len : Nat}
    (hl : len < 2 ^ 64)
    (h : ¬ (R.eip3860 ∧ R.maxInit < len) → (if R.eip3860 then 2 * wordsOf len else 0) ≤ s.gas →
      Sat (f () { s with gas := s.gas - (if R.eip3860 then 2 * wordsOf len else 0) }) P Q)
    (h' : (R.eip3860 ∧ R.maxInit < len) ∨ s.gas < (if R.eip3860 then 2 * wordsOf len else 0) → Q s) :
    Sat ((initcode R len >>= f) s) P Q := by
  have hw0 : wordsOf 0 = 0 := by decide
  by_cases h3 : R.eip3860 = true
  · simp only [h3, if_true, true_and] at h h'
    unfold initcode
    by_cases h0 : len = 0
    · subst h0
      rw [if_neg (by simp)]
      have := h (by omega) (by omega)
      rw [hw0] at this
      exact this
    · rw [if_pos ⟨h0, h3⟩]
      by_cases hm : R.maxInit < len
      · rw [if_pos hm]
        exact h' (Or.inl hm)
      · rw [if_neg hm]
        apply sat_charge
        · intro hc
          unfold initcodeCost at hc ⊢
          rw [satMul_words (by omega) hl] at hc ⊢
          exact h hm hc
        · intro hc
          unfold initcodeCost at hc
          rw [satMul_words (by omega) hl] at hc
          exact h' (Or.inr hc)
  · unfold initcode
    rw [if_neg (fun hx => h3 hx.2)]
    simp only [h3] at h
    exact h (fun hx => Bool.noConfusion hx.1) (by simp)

/-- A creation: the two frames are those of the EVM. -/
theorem create_refines {s : Cx} (h : WF s) (R : Rules) (o : Nat) (args : List Word) (ho : o = 0xf0 ∨ o = 0xf5) :
    Sat (create R o args s)
      (fun r t => Requested s t r (createEnter R o args (view s)) ∧ t.logs = s.logs)
      (fun t => createEnter R o args (view s) = none ∧ Kept s t ∧ t.logs = s.logs) := by
  have hst : (view s).static = s.static := rfl
  unfold create createEnter
  apply sat_get
  dsimp only
  rw [hst]
  split
  · exact ⟨rfl, Kept.refl h, rfl⟩
  · have hmr : memRanges o args = [(arg args 1, arg args 2)] := by rcases ho with rfl | rfl <;> rfl
    have ha1 : arg args 1 = (args[1]?.getD 0).toNat := rfl
    have ha2 : arg args 2 = (args[2]?.getD 0).toNat := rfl
    rw [hmr, ha1, ha2]
    generalize args[1]?.getD 0 = off
    generalize args[2]?.getD 0 = len
    rw [pay_grow h _ _ (growAll_one s _ _), grown_pay]
    generalize hic : (if R.eip3860 = true then 2 * wordsOf len.toNat else 0) = ic at *
    have hnone : s.gas < need s (upTo off.toNat len.toNat) + ic ∨ (R.eip3860 = true ∧ R.maxInit < len.toNat) →
        ∀ c {β : Type} (g : EvmFrame → β) (x : EvmFrame), (if R.eip3860 = true ∧ R.maxInit < len.toNat then none
          else Option.map g (if 32000 + ic + c + need s (upTo off.toNat len.toNat) ≤ s.gas then some x else none)) = none := by
      intro hor c β g x
      split
      · rfl
      · rw [if_neg (by
          rcases hor with hx | hx
          · omega
          · contradiction)]
        rfl
    apply sat_usize
    · intro hl
      apply sat_initcode hl
      · intro hm hi
        rw [hic] at hi ⊢
        rw [if_neg hm]
        have hwi := h.pay ic
        apply sat_read hwi
        · intro hn
          have hn : need s (upTo off.toNat len.toNat) ≤ s.gas - ic := hn
          have hw1 := grown_wf hwi hn
          have hk1 : Kept s (grown { s with gas := s.gas - ic } (upTo off.toNat len.toNat)) := (grown_kept hwi _).of_gas
          rw [grown_pay] at hw1 hk1 ⊢
          have hlen : len.toNat ≠ 0 → len.toNat ≤ 32 * (grown s (upTo off.toNat len.toNat)).words := by
            intro h0
            have := in_reach (s := s) (o := off.toNat) h0
            omega
          have hg1 : (grown s (upTo off.toNat len.toNat)).gas = s.gas - need s (upTo off.toNat len.toNat) := rfl
          have hlog : (grown s (upTo off.toNat len.toNat)).logs = s.logs := rfl
          have htot := grown_total (s := s) (e := upTo off.toNat len.toNat) (by omega)
          generalize grown s (upTo off.toNat len.toNat) = m at *
          have hcc : (if o = 0xf5 then create2Cost len.toNat else 32000) =
              32000 + (if o = 0xf5 then 6 * wordsOf len.toNat else 0) := by
            unfold create2Cost keccakCost
            rw [satMul_words (by omega) hl]
            split
            · exact satAdd_eq (by unfold wordsOf; omega)
            · rfl
          rw [hcc]
          generalize (if o = 0xf5 then 6 * wordsOf len.toNat else 0) = hc at *
          apply sat_charge
          · intro hch
            have hch : 32000 + hc ≤ m.gas - ic := hch
            rw [if_pos (by omega), Option.map_some]
            apply sat_get
            have hgas : ({ { m with gas := m.gas - ic } with gas := m.gas - ic - (32000 + hc) } : Cx) =
                { m with gas := m.gas - (32000 + ic + hc) } := by
              rw [show m.gas - ic - (32000 + hc) = m.gas - (32000 + ic + hc) by omega]
            show Sat ((charge _ >>= _) { { m with gas := m.gas - ic } with gas := m.gas - ic - (32000 + hc) }) _ _
            rw [hgas]
            generalize hg2 : m.gas - (32000 + ic + hc) = g2 at *
            have hw2 : WF { m with gas := g2 } := by
              have := hw1.pay (32000 + hc)
              rw [← hgas]
              exact this
            have hvg : (view { m with gas := g2 }).gas = g2 := rfl
            have hfw : Spec.forward R g2 g2 = if R.eip150 then reduce64 g2 else g2 := by
              unfold Spec.forward reduce64
              split
              · exact Nat.min_eq_left (by omega)
              · rfl
            dsimp only
            rw [hvg, ← hfw]
            have hfl : Spec.forward R g2 g2 ≤ g2 := by
              rw [hfw]; unfold reduce64; split <;> omega
            generalize Spec.forward R g2 g2 = fw at *
            apply sat_charge
            · intro _
              have hw3 := hw2.pay fw
              have hk3 : Kept s { m with gas := g2 - fw } := ⟨hk1.cp, hk1.le, hk1.pre⟩
              refine ⟨⟨?_, hw3, ?_, hk3, ?_, ?_⟩, hlog⟩
              · congr 2
                unfold view Cx.child inBytes
                congr 1
                simp
              · have hb := hw2.buf_lt
                have hb : 3 * m.mem.buf.length + 32 * g2 ≤ 2 ^ 60 := hb
                refine child_wf hw3 ?_ ?_ ?_ ?_
                · show 3 * m.mem.buf.length + 32 * fw ≤ 2 ^ 60
                  omega
                · intro bs hbs
                  cases hbs
                  show 0 < 2 ^ 63
                  decide
                · intro a b hab; cases hab
                · show (window _ _ _).length < 2 ^ 63
                  rw [window_length]
                  by_cases h0 : len.toNat = 0
                  · omega
                  · have := hlen h0
                    have : m.words < 2 ^ 32 := hw2.words_lt
                    omega
              · show g2 - fw + fw ≤ s.gas
                omega
              · show g2 - fw + fw + wordGas m.words ≤ s.gas + wordGas s.words
                omega
            · intro hc3
              have hc3 : g2 < fw := hc3
              omega
          · intro hch
            have hch : m.gas - ic < 32000 + hc := hch
            rw [if_neg (by omega)]
            exact ⟨rfl, hk1, hlog⟩
        · intro hn t k hlog
          have hn : s.gas - ic < need s (upTo off.toNat len.toNat) := hn
          have := hnone (Or.inl (by omega))
          rw [if_neg (by omega)]
          exact ⟨rfl, k.of_gas, hlog⟩
      · intro hor
        rw [hic] at hor
        refine ⟨hnone ?_ _ _ _, Kept.refl h, rfl⟩
        rcases hor with hx | hx
        · exact Or.inr hx
        · exact Or.inl (by omega)
    · intro hl
      refine ⟨hnone (Or.inl ?_) _ _ _, Kept.refl h, rfl⟩
      have := need_top h (o := off.toNat) (l := len.toNat) (by omega) (Or.inr hl)
      omega

/-- Coming back from a frame: the caller's memory is as it was. -/
theorem resume_eq {s t : Cx} {r : Request} (k : Kept (s.child r) t) :
    s.resume t = { s with logs := t.logs } := by
  have h1 : t.mem.cp = s.mem.buf.length := k.cp
  have h2 : t.mem.buf.take s.mem.buf.length = s.mem.buf.take s.mem.buf.length := k.pre
  unfold Cx.resume
  rw [h1, h2, List.take_length]

/-- The caller's context after a frame. -/
theorem back_wf {s : Cx} (h : WF s) {d : List UInt8} {g : Nat} {logs : List LogEntry} (hd : d.length < 2 ^ 63)
    (hg : 3 * s.mem.cp + 32 * (g + wordGas s.words) ≤ 2 ^ 60) :
    WF { s with logs := logs, ret := d, gas := g } :=
  ⟨h.size, h.paid, hg, h.inp, h.shr, h.code, hd⟩

/-- What a run must be like, compared with the specification. -/
def Ran (s : Cx) (r : EStateM.Result Stop Cx (Bool × List UInt8)) (spec : Ending × List LogEntry) : Prop :=
  Sat r (fun d t => spec = (.done d.1 d.2 t.gas, t.logs) ∧ Kept s t ∧ t.gas ≤ s.gas ∧ d.2.length < 2 ^ 63)
    (fun t => spec = (.halt, t.logs) ∧ Kept s t)

theorem Ran.kept {s t : Cx} {r : EStateM.Result Stop Cx (Bool × List UInt8)} {spec : Ending × List LogEntry}
    (h : Ran t r spec) (k : Kept s t) (hg : t.gas ≤ s.gas) : Ran s r spec := by
  unfold Ran Sat at *
  split at h
  · exact ⟨h.1, k.trans h.2.1, Nat.le_trans h.2.2.1 hg, h.2.2.2⟩
  · exact ⟨h.1, k.trans h.2⟩
  · exact h

theorem run_refines (hash : List UInt8 → Word) (R : Rules) (act : Act) : ∀ {s : Cx}, WF s → act.Fits →
    Ran s (run hash R act s) (runFrame hash R act (view s)) := by
  induction act with
  | stop => exact fun h _ => ⟨rfl, Kept.refl h, Nat.le_refl _, by show 0 < 2 ^ 63; decide⟩
  | fail => exact fun h _ => ⟨rfl, Kept.refl h⟩
  | ret rev off len =>
    intro s h _
    have hr := doReturn_refines h off len
    show Ran s ((doReturn off len >>= fun d => pure (rev, d)) s) _
    unfold runFrame
    apply sat_bind
    unfold Sat at hr ⊢
    split at hr
    · obtain ⟨h1, h2, h3, h4, h5, h6, h7⟩ := hr
      rw [h1]
      exact ⟨by rw [h2]; rfl, h5, h6, h3⟩
    · obtain ⟨h1, h2, h3⟩ := hr
      rw [h1]
      exact ⟨by rw [h3]; rfl, h2⟩
    · exact hr
  | step o args acct next ih =>
    intro s h hf
    obtain ⟨ho, ha, hn⟩ := hf
    have hr := exec_refines h hash o args acct ho ha
    unfold run runFrame
    unfold Refines Sat at hr
    cases hx : exec hash o args acct s with
    | ok w t =>
      rw [hx] at hr
      obtain ⟨h1, h2, h3, h4⟩ := hr
      rw [h1]
      exact (ih w t.gas h2 (hn w t.gas)).kept h3 h4
    | error e t =>
      rw [hx] at hr
      cases e with
      | err e =>
        obtain ⟨h1, h2, h3⟩ := hr
        rw [h1]
        exact ⟨by rw [h3]; rfl, h2⟩
      | panic => exact hr
  | call o args dyn code child next ihc ihn =>
    intro s h hf
    obtain ⟨ho, hc, hch, hn⟩ := hf
    have ho : o = 0xf1 ∨ o = 0xf2 ∨ o = 0xf4 ∨ o = 0xfa := by
      simp only [List.mem_cons, Prod.mk.injEq, List.not_mem_nil, or_false] at ho
      rcases ho with h | h | h | h
      · exact Or.inl h.1
      · exact Or.inr (Or.inl h.1)
      · exact Or.inr (Or.inr (Or.inl h.1))
      · exact Or.inr (Or.inr (Or.inr h.1))
    have hr := call_refines h R o args dyn code ho hc
    unfold run runFrame
    cases hx : call R o args dyn code s with
    | error e t =>
      rw [hx] at hr
      cases e with
      | err e =>
        obtain ⟨h1, h2, h3⟩ := hr
        rw [h1]
        exact ⟨by rw [h3]; rfl, h2⟩
      | panic => exact hr
    | ok r t =>
      rw [hx] at hr
      obtain ⟨⟨h1, h2, h3, h4, h5, h9⟩, h6, h7, h8⟩ := hr
      rw [h1]
      have hrun := ihc h3 hch
      dsimp only
      cases hy : run hash R child (t.child r) with
      | error e u =>
        rw [hy] at hrun
        cases e with
        | err e =>
          obtain ⟨r1, r2⟩ := hrun
          dsimp only
          rw [resume_eq r2, r1]
          have hw := back_wf h2 (d := []) (g := t.gas) (logs := u.logs) (by show 0 < 2 ^ 63; decide) h2.room
          exact (ihn false t.gas hw (hn _ _)).kept ⟨h4.cp, h4.le, h4.pre⟩ (show t.gas ≤ s.gas by omega)
        | panic => exact hrun
      | ok d u =>
        rw [hy] at hrun
        obtain ⟨rev, data⟩ := d
        obtain ⟨r1, r2, r3, r4⟩ := hrun
        have r3 : u.gas ≤ r.gas := r3
        have r4 : data.length < 2 ^ 63 := r4
        dsimp only at r1 ⊢
        rw [resume_eq r2, r1]
        dsimp only
        have hroom := h.room
        have hcp := h4.cp
        have hw := back_wf h2 (d := data) (g := t.gas + u.gas) (logs := u.logs) r4 (by rw [hcp]; omega)
        have hk : Kept s { t with logs := u.logs, ret := data, gas := t.gas + u.gas } := ⟨h4.cp, h4.le, h4.pre⟩
        have hkw : ({ t with logs := u.logs, ret := data, gas := t.gas + u.gas } : Cx).words = t.words := rfl
        have hv : ({ view t with gas := t.gas + u.gas, ret := data, logs := u.logs } : EvmFrame) =
            view { t with logs := u.logs, ret := data, gas := t.gas + u.gas } := rfl
        unfold callLeave
        dsimp only
        have hg : ({ t with logs := u.logs, ret := data, gas := t.gas + u.gas } : Cx).gas ≤ s.gas := by
          show t.gas + u.gas ≤ s.gas
          omega
        have hvm : (view t).mem = (view { t with logs := u.logs, ret := data, gas := t.gas + u.gas }).mem := rfl
        rw [h7]
        generalize hq : ({ t with logs := u.logs, ret := data, gas := t.gas + u.gas } : Cx) = q at *
        have hq2 : ({ { t with logs := u.logs } with ret := data, gas := t.gas + u.gas } : Cx) = q := hq
        generalize (if o = 0xf1 ∨ o = 0xf2 then 5 else 4) = p at *
        by_cases hd : data.take (arg args (p + 1)) = []
        · have hput : put r.outStart (data.take (arg args (p + 1))) q = .ok () q := by
            rw [put_eq hw (fun hx => absurd hd hx), hd, wrote_nil]
          show Ran s (match put r.outStart (data.take (arg args (p + 1))) q with | .error e s => _ | .ok () s => _) _
          rw [hput]
          have := (ihn (!rev) q.gas hw (hn _ _)).kept hk hg
          rw [← hv] at this
          rw [hd, overwrite_nil]
          rw [← hq] at this ⊢
          exact this
        · have h0 : arg args (p + 1) ≠ 0 := by
            intro h0
            rw [h0] at hd
            exact hd rfl
          obtain ⟨e1, e2⟩ := h8 h0
          have hb : arg args p + (data.take (arg args (p + 1))).length ≤ 32 * q.words := by
            rw [hkw, List.length_take]
            omega
          rw [e1]
          have hput : put (arg args p) (data.take (arg args (p + 1))) q =
              .ok () (wrote q (arg args p) (data.take (arg args (p + 1)))) := put_eq hw (fun _ => hb)
          show Ran s (match put (arg args p) (data.take (arg args (p + 1))) q with | .error e s => _ | .ok () s => _) _
          rw [hput]
          have := (ihn (!rev) q.gas (wrote_wf hw hb) (hn _ _)).kept (hk.trans (wrote_kept hw hb)) hg
          rw [wrote_view hw hb, ← hv] at this
          have hqg : q.gas = t.gas + u.gas := by rw [← hq]
          rw [hqg] at this
          have hwg : (wrote q (arg args p) (data.take (arg args (p + 1)))).gas = t.gas + u.gas := hqg
          dsimp only
          rw [hwg]
          exact this
  | create o args deposit child next ihc ihn =>
    intro s h hf
    obtain ⟨ho, hch, hn⟩ := hf
    have ho : o = 0xf0 ∨ o = 0xf5 := by
      simp only [List.mem_cons, Prod.mk.injEq, List.not_mem_nil, or_false] at ho
      rcases ho with h | h
      · exact Or.inl h.1
      · exact Or.inr h.1
    have hr := create_refines h R o args ho
    unfold run runFrame
    cases hx : create R o args s with
    | error e t =>
      rw [hx] at hr
      cases e with
      | err e =>
        obtain ⟨h1, h2, h3⟩ := hr
        rw [h1]
        exact ⟨by rw [h3]; rfl, h2⟩
      | panic => exact hr
    | ok r t =>
      rw [hx] at hr
      obtain ⟨⟨h1, h2, h3, h4, h5, h9⟩, h6⟩ := hr
      rw [h1]
      have hrun := ihc h3 hch
      dsimp only
      have hroom := h.room
      have hcp := h4.cp
      have next_ok : ∀ (b : Bool) (d : List UInt8) (g : Nat) (logs : List LogEntry), d.length < 2 ^ 63 → g ≤ r.gas →
          Ran s (run hash R (next b (t.gas + g)) { t with logs := logs, ret := d, gas := t.gas + g })
            (runFrame hash R (next b (t.gas + g)) { view t with logs := logs, ret := d, gas := t.gas + g }) := by
        intro b d g logs hd hg
        have hw := back_wf h2 (d := d) (g := t.gas + g) (logs := logs) hd (by rw [hcp]; omega)
        exact (ihn b (t.gas + g) hw (hn _ _)).kept ⟨h4.cp, h4.le, h4.pre⟩ (show t.gas + g ≤ s.gas by omega)
      have hnil : ([] : List UInt8).length < 2 ^ 63 := by show 0 < 2 ^ 63; decide
      cases hy : run hash R child (t.child r) with
      | error e u =>
        rw [hy] at hrun
        cases e with
        | err e =>
          obtain ⟨r1, r2⟩ := hrun
          dsimp only
          rw [resume_eq r2, r1]
          exact next_ok false [] 0 u.logs hnil (Nat.zero_le _)
        | panic => exact hrun
      | ok d u =>
        rw [hy] at hrun
        obtain ⟨rev, data⟩ := d
        obtain ⟨r1, r2, r3, r4⟩ := hrun
        have r3 : u.gas ≤ r.gas := r3
        have r4 : data.length < 2 ^ 63 := r4
        dsimp only at r1 ⊢
        cases rev with
        | true =>
          dsimp only
          rw [resume_eq r2, r1]
          exact next_ok false data u.gas u.logs r4 r3
        | false =>
          dsimp only
          rw [resume_eq r2, r1]
          unfold createLeave
          dsimp only
          by_cases hdep : deposit data ≤ u.gas
          · rw [if_pos hdep, if_pos hdep]
            exact next_ok true [] (u.gas - deposit data) u.logs hnil (by omega)
          · rw [if_neg hdep, if_neg hdep]
            exact next_ok false [] 0 u.logs hnil (Nat.zero_le _)

end Verif.Frames
