import Verif.Lemmas.FrameOps
/-!
# Logs, returns, calls and creations
-/

namespace Verif.Frames

open Verif.Builtins (Err satUsize satAdd)
open Verif.Spec (LogEntry Act Rules EvmFrame wordsOf memGas window pay expand overwrite grow growAll)

/-- Reading a memory range. -/
theorem sat_read {f : List UInt8 → M β} {P : β → Cx → Prop} {Q : Cx → Prop} {s : Cx} {off : Word} {len : Nat} (w : WF s)
    (h : need s (upTo off.toNat len) ≤ s.gas →
      Sat (f (window (view (grown s (upTo off.toNat len))).mem off.toNat len) (grown s (upTo off.toNat len))) P Q)
    (h' : s.gas < need s (upTo off.toNat len) → ∀ t, Kept s t → t.logs = s.logs → Q t) :
    Sat ((readRange off len >>= f) s) P Q := by
  apply sat_bind
  unfold readRange
  by_cases h0 : len = 0
  · subst h0
    rw [if_pos rfl]
    rw [need_upTo_zero, grown_upTo_zero w, window_nil] at h
    exact sat_pure (h (Nat.zero_le _))
  · rw [if_neg h0]
    apply sat_touch w h0
    · intro hn
      rw [slice_eq (grown_wf w hn) (in_reach h0)]
      exact h hn
    · exact h'

theorem logCost_le {n len g : Nat} (hn : n ≤ 4) (hg : g ≤ 2 ^ 55) :
    (logCost n len ≤ g ↔ 375 * n + 8 * len ≤ g) ∧ (logCost n len ≤ g → logCost n len = 375 * n + 8 * len) := by
  unfold logCost satAdd satMul
  omega

theorem log_refines {s : Cx} (h : WF s) (n : Nat) (hn : n ≤ 4) (args topics : List Word) (o l : Word)
    (h0 : atSp args n = l) (h1 : atSp args (n + 1) = o) (h2 : logTopics args n = topics) :
    Refines s (log n args s)
      (if s.static then none
      else (pay (view s) (375 * n + 8 * l.toNat) [(o.toNat, l.toNat)]).map fun f =>
        ({ f with logs := f.logs ++ [(topics, window f.mem o.toNat l.toNat)] }, 0)) := by
  have hgl := h.gas_le
  rw [pay_grow h _ _ (growAll_one s _ _)]
  unfold log
  apply sat_get
  by_cases hs : s.static = true
  · rw [if_pos hs, if_pos hs]
    exact sat_fail ⟨rfl, Kept.refl h, rfl⟩
  · rw [if_neg hs, if_neg hs, h0, h1]
    apply sat_usize
    · intro hl
      obtain ⟨hc1, hc2⟩ := logCost_le (n := n) (len := l.toNat) (g := s.gas) hn (by omega)
      apply sat_charge
      · intro hc
        have hceq := hc2 hc
        rw [hceq] at hc ⊢
        have hs1 := h.pay (375 * n + 8 * l.toNat)
        apply sat_read hs1
        · intro hnd
          have hnd' : need s (upTo o.toNat l.toNat) ≤ s.gas - (375 * n + 8 * l.toNat) := hnd
          have hw := grown_wf hs1 hnd
          rw [if_pos (by omega)]
          have hk := (grown_kept hs1 (upTo o.toNat l.toNat)).of_gas
          refine ⟨?_, ⟨hw.size, hw.paid, hw.room, hw.inp, hw.shr, hw.code, hw.ret⟩, ⟨hk.cp, hk.le, hk.pre⟩,
            Nat.le_trans (grown_gas _ _) (Nat.sub_le _ _)⟩
          rw [h2]; rfl
        · intro hnd t k hlog
          have hnd' : s.gas - (375 * n + 8 * l.toNat) < need s (upTo o.toNat l.toNat) := hnd
          rw [if_neg (by omega)]
          exact ⟨rfl, k.of_gas, hlog⟩
      · intro hc
        rw [if_neg (by omega)]
        exact ⟨rfl, Kept.refl h, rfl⟩
    · intro hl
      rw [if_neg (by have := need_top h (o := o.toNat) (l := l.toNat) (by omega) (Or.inr hl); omega)]
      exact ⟨rfl, Kept.refl h, rfl⟩

theorem step_log (hash : List UInt8 → Word) (n : Nat) (hn : n ≤ 4) (args : List Word) (acct : Option (List UInt8 × Nat))
    (s : Cx) :
    Spec.step hash (0xa0 + n) args acct (view s) =
      if s.static then none
      else (pay (view s) (375 * n + 8 * (args[1]?.getD 0).toNat) [((args[0]?.getD 0).toNat, (args[1]?.getD 0).toNat)]).map
        fun f => ({ f with logs := f.logs ++ [(args.drop 2, window f.mem (args[0]?.getD 0).toNat (args[1]?.getD 0).toNat)] }, 0) := by
  have hv : (view s).static = s.static := rfl
  have hc : n = 0 ∨ n = 1 ∨ n = 2 ∨ n = 3 ∨ n = 4 := by omega
  rcases hc with rfl | rfl | rfl | rfl | rfl <;>
  · unfold Spec.step Spec.stepAllowed
    rw [hv]
    cases s.static <;> rfl

/-- Every step is that of the EVM. -/
theorem exec_refines {s : Cx} (h : WF s) (hash : List UInt8 → Word) (o : Nat) (args : List Word)
    (acct : Option (List UInt8 × Nat)) (ho : (o, args.length) ∈ Spec.dataOps)
    (ha : ∀ p, acct = some p → p.1.length < 2 ^ 63) :
    Refines s (exec hash o args acct s) (Spec.step hash o args acct (view s)) := by
  unfold Spec.dataOps at ho
  simp only [List.mem_cons, Prod.mk.injEq, List.not_mem_nil, or_false] at ho
  have logcase : ∀ n, n ≤ 4 → ∀ args : List Word, args.length = n + 2 →
      Refines s (exec hash (0xa0 + n) args acct s) (Spec.step hash (0xa0 + n) args acct (view s)) := by
    intro n hn args hl
    rw [step_log hash n hn]
    have hex : exec hash (0xa0 + n) args acct = log n args := by
      have hc : n = 0 ∨ n = 1 ∨ n = 2 ∨ n = 3 ∨ n = 4 := by omega
      rcases hc with rfl | rfl | rfl | rfl | rfl <;> rfl
    rw [hex]
    apply log_refines h n hn
    · unfold atSp
      rw [List.getElem?_reverse (by omega)]
      congr 3
      omega
    · unfold atSp
      rw [List.getElem?_reverse (by omega)]
      congr 3
      omega
    · unfold logTopics atSp
      apply List.ext_getElem?
      intro j
      rw [List.getElem?_map, List.getElem?_drop]
      by_cases hj : j < n
      · rw [List.getElem?_range hj, Option.map_some, List.getElem?_reverse (by omega)]
        rw [show args.length - 1 - (n - (j + 1)) = 2 + j by omega, List.getElem?_eq_getElem (show 2 + j < args.length by omega)]
        rfl
      · rw [List.getElem?_eq_none (by simp; omega), List.getElem?_eq_none (show args.length ≤ 2 + j by omega)]; rfl
  rcases ho with ⟨rfl, hl⟩ | ⟨rfl, hl⟩ | ⟨rfl, hl⟩ | ⟨rfl, hl⟩ | ⟨rfl, hl⟩ | ⟨rfl, hl⟩ | ⟨rfl, hl⟩ | ⟨rfl, hl⟩ |
    ⟨rfl, hl⟩ | ⟨rfl, hl⟩ | ⟨rfl, hl⟩ | ⟨rfl, hl⟩ | ⟨rfl, hl⟩ | ⟨rfl, hl⟩ | ⟨rfl, hl⟩
  · obtain ⟨a, b, rfl⟩ := List.length_eq_two.1 hl
    exact keccak_refines h hash a b acct
  · obtain ⟨a, rfl⟩ := List.length_eq_one_iff.1 hl
    exact calldataload_refines h hash a acct
  · obtain ⟨a, b, c, rfl⟩ := List.length_eq_three.1 hl
    exact calldatacopy_refines h hash a b c acct
  · obtain ⟨a, b, c, rfl⟩ := List.length_eq_three.1 hl
    exact codecopy_refines h hash a b c acct
  · match args, hl with
    | [a, b, c, d], _ => exact extcodecopy_refines h hash a b c d acct ha
  · obtain ⟨a, b, c, rfl⟩ := List.length_eq_three.1 hl
    exact returndatacopy_refines h hash a b c acct
  · obtain ⟨a, rfl⟩ := List.length_eq_one_iff.1 hl
    exact mload_refines h hash a acct
  · obtain ⟨a, b, rfl⟩ := List.length_eq_two.1 hl
    exact mstore_refines h hash a b acct
  · obtain ⟨a, b, rfl⟩ := List.length_eq_two.1 hl
    exact mstore8_refines h hash a b acct
  · obtain ⟨a, b, c, rfl⟩ := List.length_eq_three.1 hl
    exact mcopy_refines h hash a b c acct
  · exact logcase 0 (by omega) args hl
  · exact logcase 1 (by omega) args hl
  · exact logcase 2 (by omega) args hl
  · exact logcase 3 (by omega) args hl
  · exact logcase 4 (by omega) args hl

theorem doReturn_refines {s : Cx} (h : WF s) (off len : Word) :
    Sat (doReturn off len s)
      (fun d t => pay (view s) 0 [(off.toNat, len.toNat)] = some (view t) ∧
        d = window (view t).mem off.toNat len.toNat ∧ d.length < 2 ^ 63 ∧ WF t ∧ Kept s t ∧ t.gas ≤ s.gas ∧ t.logs = s.logs)
      (fun t => pay (view s) 0 [(off.toNat, len.toNat)] = none ∧ Kept s t ∧ t.logs = s.logs) := by
  rw [pay_grow h _ _ (growAll_one s _ _), Nat.zero_add, show ({ s with gas := s.gas - 0 } : Cx) = s from rfl]
  unfold doReturn
  apply sat_usize
  · intro hl
    have hb : readRange off len.toNat s = (readRange off len.toNat >>= pure) s := by
      show _ = EStateM.bind _ _ _
      unfold EStateM.bind
      cases readRange off len.toNat s <;> rfl
    rw [hb]
    apply sat_read h
    · intro hn
      rw [if_pos hn]
      refine sat_pure ⟨rfl, rfl, ?_, grown_wf h hn, grown_kept h _, grown_gas _ _, rfl⟩
      rw [window_length]
      by_cases h0 : len.toNat = 0
      · omega
      · have := in_reach (s := s) (o := off.toNat) h0
        have := (grown_wf h hn).words_lt
        omega
    · intro hn t k hlog
      rw [if_neg (by omega)]
      exact ⟨rfl, k, hlog⟩
  · intro hl
    rw [if_neg (by have := need_top h (o := off.toNat) (l := len.toNat) (by omega) (Or.inr hl); omega)]
    exact ⟨rfl, Kept.refl h, rfl⟩

/-- The variants for constants are the general builtins. -/
theorem doReturnCC_eq (off len : BitVec 64) :
    doReturnCC off len = doReturn (BitVec.ofNat 256 off.toNat) (BitVec.ofNat 256 len.toNat) := by
  have e1 : (BitVec.ofNat 256 off.toNat).toNat = off.toNat := by
    rw [BitVec.toNat_ofNat, Nat.mod_eq_of_lt (by have := off.isLt; omega)]
  have e2 : (BitVec.ofNat 256 len.toNat).toNat = len.toNat := by
    rw [BitVec.toNat_ofNat, Nat.mod_eq_of_lt (by have := len.isLt; omega)]
  have u (w : Word) (hw : w.toNat < 2 ^ 64) (f : Nat → M (List UInt8)) : (toUsize w >>= f) = f w.toNat := by
    funext s
    show EStateM.bind _ _ _ = _
    unfold EStateM.bind toUsize
    rw [if_pos hw]
  unfold doReturnCC doReturn
  rw [u _ (by rw [e2]; exact len.isLt), e2]
  unfold readRange
  split
  · rfl
  · rw [u _ (by rw [e1]; exact off.isLt), e1]

theorem keccakCC_eq (hash : List UInt8 → Word) (off len : BitVec 64) :
    keccakCC hash off len = keccak hash [BitVec.ofNat 256 off.toNat, BitVec.ofNat 256 len.toNat] := by
  have e2 : (BitVec.ofNat 256 len.toNat).toNat = len.toNat := by
    rw [BitVec.toNat_ofNat, Nat.mod_eq_of_lt (by have := len.isLt; omega)]
  unfold keccakCC keccak
  funext s
  have a0 : atSp [BitVec.ofNat 256 off.toNat, BitVec.ofNat 256 len.toNat] 0 = BitVec.ofNat 256 len.toNat := rfl
  have a1 : atSp [BitVec.ofNat 256 off.toNat, BitVec.ofNat 256 len.toNat] 1 = BitVec.ofNat 256 off.toNat := rfl
  show _ = EStateM.bind _ _ _
  unfold EStateM.bind toUsize
  rw [a0, a1, e2, if_pos len.isLt]

/-! ## Calls -/

theorem wordsOf_max (a b : Nat) : wordsOf (max a b) = max (wordsOf a) (wordsOf b) := by unfold wordsOf; omega

theorem reach_reach (s : Cx) (a b : Nat) : reach (grown s a) b = reach s (max a b) := by
  unfold reach
  rw [wordsOf_max]
  simp only [grown, reach]
  omega

theorem need_need (s : Cx) (a b : Nat) : need s a + need (grown s a) b = need s (max a b) := by
  have h1 : (grown s a).words = reach s a := rfl
  unfold need
  rw [reach_reach, h1]
  have := wordGas_mono (reach_ge s a)
  have h2 : reach s a ≤ reach s (max a b) := by unfold reach; rw [wordsOf_max]; omega
  have := wordGas_mono h2
  omega

theorem grown_grown (s : Cx) (a b : Nat) : grown (grown s a) b = grown s (max a b) := by
  have hn := need_need s a b
  have hr := reach_reach s a b
  have h1 : (grown s a).words = reach s a := rfl
  have h2 : reach s a ≤ reach s (max a b) := by unfold reach; rw [wordsOf_max]; omega
  have h3 := reach_ge s a
  have e : grown (grown s a) b =
      { grown s a with
        gas := s.gas - need s a - need (grown s a) b, words := reach (grown s a) b
        paid := wordGas (reach (grown s a) b)
        mem := { s.mem with
          buf := s.mem.buf ++ List.replicate (32 * reach s a - 32 * s.words) 0 ++
            List.replicate (32 * reach (grown s a) b - 32 * reach s a) 0 } } := rfl
  rw [e, hr, Nat.sub_sub, hn, List.append_assoc, List.replicate_append_replicate,
    show 32 * reach s a - 32 * s.words + (32 * reach s (max a b) - 32 * reach s a) =
      32 * reach s (max a b) - 32 * s.words by omega]
  rfl

theorem grown_total {s : Cx} {e : Nat} (h : need s e ≤ s.gas) :
    (grown s e).gas + wordGas (grown s e).words = s.gas + wordGas s.words := by
  have h1 : (grown s e).gas = s.gas - need s e := rfl
  have h2 : (grown s e).words = reach s e := rfl
  have h3 : need s e = wordGas (reach s e) - wordGas s.words := rfl
  have := wordGas_mono (reach_ge s e)
  rw [h1, h2]
  omega

theorem growAll_pair (s : Cx) (a b c d : Nat) :
    growAll (32 * s.words) [(a, b), (c, d)] = 32 * reach s (max (upTo a b) (upTo c d)) := by
  unfold growAll upTo
  simp only [List.foldl_cons, List.foldl_nil]
  unfold grow
  dsimp only
  split <;> split <;> unfold reach wordsOf <;> omega

/-- Growing after paying is paying after growing. -/
theorem grown_pay (s : Cx) (c e : Nat) :
    grown { s with gas := s.gas - c } e = { grown s e with gas := (grown s e).gas - c } := by
  have h1 : need { s with gas := s.gas - c } e = need s e := rfl
  have h2 : reach { s with gas := s.gas - c } e = reach s e := rfl
  unfold grown
  rw [h1, h2]
  dsimp only
  rw [Nat.sub_right_comm]

/-- A range of a call. -/
theorem sat_range {f : Option (Nat × Nat) → M β} {P : β → Cx → Prop} {Q : Cx → Prop} {s : Cx} {off len : Word} (w : WF s)
    (h : need s (upTo off.toNat len.toNat) ≤ s.gas → len.toNat < 2 ^ 64 →
      Sat (f (if len.toNat = 0 then none else some (off.toNat, len.toNat)) (grown s (upTo off.toNat len.toNat))) P Q)
    (h' : s.gas < need s (upTo off.toNat len.toNat) → ∀ t, Kept s t → t.logs = s.logs → Q t) :
    Sat ((callRange off len >>= f) s) P Q := by
  apply sat_bind
  unfold callRange
  apply sat_usize
  · intro hl
    by_cases h0 : len.toNat = 0
    · rw [if_pos h0]
      rw [if_pos h0, h0, need_upTo_zero, grown_upTo_zero w] at h
      exact sat_pure (h (Nat.zero_le _) (by omega))
    · rw [if_neg h0]
      rw [if_neg h0] at h
      apply sat_touch w h0
      · intro hn
        exact sat_pure (h hn hl)
      · exact h'
  · intro hl
    exact h' (need_top w (by omega) (Or.inr hl)) s (Kept.refl w) rfl

/-- What a request to run another frame must be like, compared with the specification's two frames. -/
structure Requested (s t : Cx) (r : Request) (spec : Option (EvmFrame × EvmFrame)) : Prop where
  spec : spec = some (view t, view (t.child r))
  wf : WF t
  child : WF (t.child r)
  kept : Kept s t
  gas : t.gas + r.gas ≤ s.gas
  total : t.gas + r.gas + wordGas t.words ≤ s.gas + wordGas s.words

theorem child_wf {t : Cx} {r : Request} (h : WF t) (hg : 3 * t.mem.buf.length + 32 * r.gas ≤ 2 ^ 60)
    (hi : ∀ bs, r.input = .bytes bs → bs.length < 2 ^ 63)
    (hs : ∀ a b, r.input = .shared a b → a < b → b ≤ t.mem.buf.length) (hc : r.code.length < 2 ^ 63) :
    WF (t.child r) := by
  have hw0 : wordGas 0 = 0 := by decide
  refine ⟨rfl, hw0.symm, ?_, hi, hs, hc, by show 0 < 2 ^ 63; decide⟩
  show 3 * t.mem.buf.length + 32 * (r.gas + wordGas 0) ≤ 2 ^ 60
  omega

/-- `__revmc_builtin_call` after the operands are known. -/
def callBody (R : Rules) (o : Nat) (code : List UInt8) (dyn : Option Nat) (hasValue : Bool) (value req : Nat)
    (inOff inLen outOff outLen : Word) : M Request :=
  callRange inOff inLen >>= fun inR => (get : M Cx) >>= fun s1 => callRange outOff outLen >>= fun outR =>
    charge (if value ≠ 0 then 9000 else 0) >>= fun _ => delegated dyn >>= fun dyn => charge dyn >>= fun _ =>
      (get : M Cx) >>= fun s =>
        charge (if R.eip150 then min (reduce64 s.gas) req else req) >>= fun _ =>
          pure
            { gas := if hasValue ∧ value ≠ 0 then
                satAdd (if R.eip150 then min (reduce64 s.gas) req else req) 2300
              else if R.eip150 then min (reduce64 s.gas) req else req
              input := .shared (callInput s1.mem.cp inR).1 (callInput s1.mem.cp inR).2, code := code
              static := s.static || o == 0xfa
              outStart := (outR.getD (2 ^ 64 - 1, 0)).1
              outStop := (outR.getD (2 ^ 64 - 1, 0)).1 + (outR.getD (2 ^ 64 - 1, 0)).2 }

/-- The two frames of `callEnter`, with the operands named. -/
def callSpec (R : Rules) (o : Nat) (code : List UInt8) (dyn : Option Nat) (value : Nat)
    (req inOff inLen outOff outLen : Word) (f : EvmFrame) : Option (EvmFrame × EvmFrame) :=
  match dyn with
  | none => none
  | some dyn =>
    (pay f ((if value ≠ 0 then 9000 else 0) + dyn)
        [(inOff.toNat, inLen.toNat), (outOff.toNat, outLen.toNat)]).bind fun f =>
      if Spec.forward R req.toNat f.gas ≤ f.gas then
        some ({ f with gas := f.gas - Spec.forward R req.toNat f.gas },
          { gas := Spec.forward R req.toNat f.gas + (if value ≠ 0 then 2300 else 0), mem := []
            input := window f.mem inOff.toNat inLen.toNat
            code := code, ret := [], static := f.static || o == 0xfa, logs := f.logs })
      else none

theorem satAdd_eq {a b : Nat} (h : a + b < 2 ^ 64) : satAdd a b = a + b := by unfold satAdd; omega

theorem callBody_refines {s : Cx} (h : WF s) (R : Rules) (o : Nat) (code : List UInt8) (dyn : Option Nat)
    (hasValue : Bool) (value : Nat) (req inOff inLen outOff outLen : Word) (hcode : code.length < 2 ^ 63)
    (hv : value ≠ 0 → hasValue = true) :
    Sat (callBody R o code dyn hasValue value (satUsize req) inOff inLen outOff outLen s)
      (fun r t => Requested s t r (callSpec R o code dyn value req inOff inLen outOff outLen (view s)) ∧ t.logs = s.logs ∧ r.outStop - r.outStart = outLen.toNat ∧
        (outLen.toNat ≠ 0 → r.outStart = outOff.toNat ∧ outOff.toNat + outLen.toNat ≤ 32 * t.words))
      (fun t => callSpec R o code dyn value req inOff inLen outOff outLen (view s) = none ∧ Kept s t ∧ t.logs = s.logs) := by
  generalize hspec0 : callSpec R o code dyn value req inOff inLen outOff outLen (view s) = spec
  unfold callSpec at hspec0
  let e1 := upTo inOff.toNat inLen.toNat
  let e2 := upTo outOff.toNat outLen.toNat
  have hpay : ∀ d, pay (view s) ((if value ≠ 0 then 9000 else 0) + d)
      [(inOff.toNat, inLen.toNat), (outOff.toNat, outLen.toNat)] =
      if (if value ≠ 0 then 9000 else 0) + d + need s (max e1 e2) ≤ s.gas then
        some (view (grown { s with gas := s.gas - ((if value ≠ 0 then 9000 else 0) + d) } (max e1 e2))) else none :=
    fun d => pay_grow h _ _ (growAll_pair s _ _ _ _)
  have hfail : (∀ d, ¬ ((if value ≠ 0 then 9000 else 0) + d + need s (max e1 e2) ≤ s.gas)) → spec = none := by
    intro hd
    rw [← hspec0]
    cases dyn with
    | none => rfl
    | some d => dsimp only; rw [hpay, if_neg (hd d)]; rfl
  have hnn := need_need s e1 e2
  unfold callBody
  apply sat_range h
  · intro hn1 hl1
    have hn1 : need s e1 ≤ s.gas := hn1
    have hw1 := grown_wf h hn1
    apply sat_get
    apply sat_range hw1
    · intro hn2 hl2
      have hn2 : need (grown s e1) e2 ≤ s.gas - need s e1 := hn2
      have hw2 := grown_wf hw1 hn2
      have hk2 : Kept s (grown (grown s e1) e2) := (grown_kept h _).trans (grown_kept hw1 _)
      have hgg : grown (grown s e1) e2 = grown s (max e1 e2) := grown_grown s e1 e2
      have hg2 : (grown s (max e1 e2)).gas = s.gas - need s (max e1 e2) := rfl
      show Sat ((charge _ >>= _) (grown (grown s e1) e2)) _ _
      rw [hgg] at hw2 hk2 ⊢
      have hcp : (grown s e1).mem.cp = (grown s (max e1 e2)).mem.cp := rfl
      have hlog : (grown s (max e1 e2)).logs = s.logs := rfl
      have hin1 : inLen.toNat ≠ 0 → inOff.toNat + inLen.toNat ≤ 32 * (grown s (max e1 e2)).words := by
        intro h0
        have hi := in_reach (s := s) (o := inOff.toNat) h0
        have hm : (grown s e1).words ≤ (grown s (max e1 e2)).words := by
          show reach s e1 ≤ reach s (max e1 e2)
          unfold reach; rw [wordsOf_max]; omega
        have hi : inOff.toNat + inLen.toNat ≤ 32 * (grown s e1).words := hi
        omega
      have hin2 : outLen.toNat ≠ 0 → outOff.toNat + outLen.toNat ≤ 32 * (grown s (max e1 e2)).words := by
        intro h0
        have hi := in_reach (s := s) (o := outOff.toNat) h0
        have hm : (grown s e2).words ≤ (grown s (max e1 e2)).words := by
          show reach s e2 ≤ reach s (max e1 e2)
          unfold reach; rw [wordsOf_max]; omega
        have hi : outOff.toNat + outLen.toNat ≤ 32 * (grown s e2).words := hi
        omega
      have htot := grown_total (s := s) (e := max e1 e2) (by omega)
      have hbl := hw2.buf_lt
      have hgl := hw2.gas_le
      have hsz := hw2.size
      have hgrow : ∀ c, grown { s with gas := s.gas - c } (max e1 e2) =
          { grown s (max e1 e2) with gas := (grown s (max e1 e2)).gas - c } := fun c => grown_pay s c _
      generalize hm : grown s (max e1 e2) = m at *
      generalize hvc : (if value ≠ 0 then 9000 else 0) = vc at *
      apply sat_charge
      · intro hc1
        apply sat_bind
        cases hdy : dyn with
        | none =>
          refine ⟨?_, (Kept.refl (hw2.pay vc)).of_gas |> hk2.trans, hlog⟩
          rw [← hspec0, hdy]
        | some d =>
          show Sat ((charge d >>= _) _) _ _
          have hspec : spec = (pay (view s) (vc + d)
              [(inOff.toNat, inLen.toNat), (outOff.toNat, outLen.toNat)]).bind fun f =>
            if Spec.forward R req.toNat f.gas ≤ f.gas then
              some ({ f with gas := f.gas - Spec.forward R req.toNat f.gas },
                { gas := Spec.forward R req.toNat f.gas + (if value ≠ 0 then 2300 else 0), mem := []
                  input := window f.mem inOff.toNat inLen.toNat
                  code := code, ret := [], static := f.static || o == 0xfa, logs := f.logs })
            else none := by
            rw [← hspec0, hdy]
          rw [hpay, hgrow] at hspec
          apply sat_charge
          · intro hc2
            have hc2 : d ≤ m.gas - vc := hc2
            rw [if_pos (by omega), Option.bind_some] at hspec
            apply sat_get
            have hgas : ({ { m with gas := m.gas - vc } with gas := m.gas - vc - d } : Cx) =
                { m with gas := m.gas - (vc + d) } := by rw [Nat.sub_sub]
            show Sat ((charge _ >>= _) { { m with gas := m.gas - vc } with gas := m.gas - vc - d }) _ _
            rw [hgas]
            generalize hg3 : m.gas - (vc + d) = g3 at *
            have hw3 : WF { m with gas := g3 } := by rw [← hg3]; exact hw2.pay _
            have hfw : Spec.forward R req.toNat g3 = if R.eip150 then min (reduce64 g3) req.toNat else req.toNat := rfl
            have hvg : (view { m with gas := g3 }).gas = g3 := rfl
            rw [hvg] at hspec
            have hlim : (if R.eip150 = true then min (reduce64 g3) (satUsize req) else satUsize req) ≤ g3 ↔
                Spec.forward R req.toNat g3 ≤ g3 := by
              rw [hfw]; unfold satUsize reduce64; split <;> omega
            have hlim2 : (if R.eip150 = true then min (reduce64 g3) (satUsize req) else satUsize req) ≤ g3 →
                (if R.eip150 = true then min (reduce64 g3) (satUsize req) else satUsize req) =
                Spec.forward R req.toNat g3 := by
              rw [hfw]; unfold satUsize reduce64; split <;> omega
            apply sat_charge
            · intro hc3
              have hc3 : (if R.eip150 = true then min (reduce64 g3) (satUsize req) else satUsize req) ≤ g3 := hc3
              have hf3 := hlim2 hc3
              rw [if_pos (hlim.1 hc3)] at hspec
              rw [hf3] at hc3 ⊢
              show _ ∧ _
              generalize Spec.forward R req.toNat g3 = fw at *
              have hw4 := hw3.pay fw
              have hvals : (if hasValue = true ∧ value ≠ 0 then satAdd fw 2300 else fw) =
                  fw + (if value ≠ 0 then 2300 else 0) := by
                by_cases h0 : value ≠ 0
                · rw [if_pos ⟨hv h0, h0⟩, if_pos h0]; exact satAdd_eq (by omega)
                · rw [if_neg (fun hx => h0 hx.2), if_neg h0]; rfl
              have hvv : (if value ≠ 0 then 2300 else 0) ≤ vc := by rw [← hvc]; split <;> omega
              rw [hvals]
              generalize hst : (if value ≠ 0 then 2300 else 0) = st at *
              have hinp : ∀ a b, (callInput (grown s e1).mem.cp
                  (if inLen.toNat = 0 then none else some (inOff.toNat, inLen.toNat))) = (a, b) →
                  (a < b → b ≤ m.mem.buf.length) ∧
                  (m.mem.buf.drop a).take (b - a) = window (view m).mem inOff.toNat inLen.toNat := by
                intro a b hab
                by_cases h0 : inLen.toNat = 0
                · rw [if_pos h0] at hab
                  unfold callInput at hab
                  cases hab
                  exact ⟨by omega, by rw [h0, window_nil, Nat.sub_self]; rfl⟩
                · rw [if_neg h0, hcp] at hab
                  have hi := hin1 h0
                  have hs1 : satAdd inOff.toNat m.mem.cp = inOff.toNat + m.mem.cp := by unfold satAdd; omega
                  have hs2 : satAdd (inOff.toNat + m.mem.cp) inLen.toNat = inOff.toNat + m.mem.cp + inLen.toNat := by
                    unfold satAdd; omega
                  unfold callInput at hab
                  dsimp only at hab
                  rw [hs1, hs2, Prod.mk.injEq] at hab
                  obtain ⟨rfl, rfl⟩ := hab
                  refine ⟨fun _ => by omega, ?_⟩
                  rw [window_inside (by rw [hw2.view_len]; omega)]
                  show _ = ((m.mem.buf.drop m.mem.cp).drop _).take _
                  rw [List.drop_drop, Nat.add_comm m.mem.cp,
                    show inOff.toNat + m.mem.cp + inLen.toNat - (inOff.toNat + m.mem.cp) = inLen.toNat by omega]
              have hspl := hinp _ _ rfl
              refine ⟨⟨?_, hw4, ?_, ?_, ?_, ?_⟩, hlog, ?_, ?_⟩
              · rw [hspec]
                congr 2
                show ({ gas := _, mem := _, input := _, code := _, ret := _, static := _, logs := _ } : EvmFrame) = _
                unfold view Cx.child inBytes
                congr 1
                · simp
                · exact hspl.2.symm
              · refine child_wf hw4 ?_ ?_ ?_ hcode
                · show 3 * m.mem.buf.length + 32 * (fw + st) ≤ 2 ^ 60
                  omega
                · intro bs hbs; cases hbs
                · intro a b hab hlt
                  cases hab
                  exact hspl.1 hlt
              · exact hk2.trans (Kept.refl hw4).of_gas.of_gas
              · show g3 - fw + (fw + st) ≤ s.gas
                omega
              · show g3 - fw + (fw + st) + wordGas m.words ≤ s.gas + wordGas s.words
                omega
              · dsimp only
                by_cases h0 : outLen.toNat = 0
                · rw [if_pos h0, h0]; rfl
                · rw [if_neg h0]; exact Nat.add_sub_cancel_left _ _
              · intro h0
                refine ⟨?_, hin2 h0⟩
                dsimp only
                rw [if_neg h0]; rfl
            · intro hc3
              have hc3 : g3 < (if R.eip150 = true then min (reduce64 g3) (satUsize req) else satUsize req) := hc3
              rw [if_neg (fun hx => by have := hlim.2 hx; omega)] at hspec
              exact ⟨hspec, hk2.trans (Kept.refl hw3).of_gas, hlog⟩
          · intro hc2
            have hc2 : m.gas - vc < d := hc2
            rw [if_neg (by omega)] at hspec
            exact ⟨hspec, hk2.trans (Kept.refl (hw2.pay vc)).of_gas, hlog⟩
      · intro hc1
        exact ⟨hfail (fun d => by omega), hk2, hlog⟩
    · intro hn2 t k hlog
      have hn2 : s.gas - need s e1 < need (grown s e1) e2 := hn2
      exact ⟨hfail (fun d => by omega), (grown_kept h _).trans k, hlog⟩
  · intro hn1 t k hlog
    have hn1 : s.gas < need s e1 := hn1
    exact ⟨hfail (fun d => by omega), k, hlog⟩

end Verif.Frames
