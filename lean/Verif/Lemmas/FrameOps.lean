import Verif.Lemmas.Frames
import Verif.Lemmas.WholeMemStep
import Verif.Props.MemJump
/-!
# Each memory builtin does what the EVM does
-/

namespace Verif.Frames

open Verif.Builtins (Err satUsize satAdd)
open Verif.Spec (LogEntry Act Rules EvmFrame wordsOf memGas window pay expand overwrite grow growAll)

theorem grown_zero {s : Cx} (h : WF s) : grown s 0 = s := by
  have hr : reach s 0 = s.words := by unfold reach wordsOf; omega
  have hn : need s 0 = 0 := by unfold need; rw [hr]; omega
  unfold grown
  rw [hn, hr, ← h.paid]
  simp

/-- Paying in the specification. -/
theorem pay_grow {s : Cx} (h : WF s) (c e : Nat) {rs : List (Nat × Nat)}
    (hg : growAll (32 * s.words) rs = 32 * reach s e) :
    pay (view s) c rs =
      if c + need s e ≤ s.gas then some (view (grown { s with gas := s.gas - c } e)) else none := by
  unfold pay
  rw [h.view_len, hg]
  have hv : (view s).gas = s.gas := rfl
  dsimp only
  rw [memGas_mul, memGas_mul, hv]
  have hn : wordGas (reach s e) - wordGas s.words = need s e := rfl
  rw [hn]
  split
  · rw [grown_view (h.pay c)]
    have h1 : need { s with gas := s.gas - c } e = need s e := rfl
    have h2 : reach { s with gas := s.gas - c } e = reach s e := rfl
    rw [h1, h2]
    dsimp only
    rw [Nat.sub_sub]
    rfl
  · rfl

/-- How far a range reaches. -/
def upTo (o l : Nat) : Nat := if l = 0 then 0 else o + l

theorem reach_zero (s : Cx) : reach s 0 = s.words := by unfold reach wordsOf; omega

theorem growAll_one (s : Cx) (o l : Nat) : growAll (32 * s.words) [(o, l)] = 32 * reach s (upTo o l) := by
  unfold growAll upTo
  simp only [List.foldl_cons, List.foldl_nil]
  unfold grow
  dsimp only
  split
  · rw [reach_zero]
  · unfold reach wordsOf; omega

theorem growAll_two (s : Cx) (o o' l : Nat) :
    growAll (32 * s.words) [(o, l), (o', l)] = 32 * reach s (upTo (max o o') l) := by
  unfold growAll upTo
  simp only [List.foldl_cons, List.foldl_nil]
  unfold grow
  dsimp only
  split
  · rw [reach_zero]
  · unfold reach wordsOf; omega

theorem growAll_nil (s : Cx) : growAll (32 * s.words) [] = 32 * reach s 0 := by rw [reach_zero]; rfl

/-- The outcome of a builtin is that of the specification. -/
def Refines (s : Cx) (r : EStateM.Result Stop Cx α) (spec : Option (EvmFrame × α)) : Prop :=
  Sat r (fun a t => spec = some (view t, a) ∧ WF t ∧ Kept s t ∧ t.gas ≤ s.gas)
    (fun t => spec = none ∧ Kept s t ∧ t.logs = s.logs)

theorem need_top {s : Cx} (h : WF s) {o l : Nat} (hl : l ≠ 0) (hbig : 2 ^ 64 ≤ o ∨ 2 ^ 64 ≤ l) :
    s.gas < need s (upTo o l) := by
  apply need_big h
  unfold upTo
  rw [if_neg hl]
  omega

theorem in_reach {s : Cx} {o l : Nat} (hl : l ≠ 0) : o + l ≤ 32 * (grown s (upTo o l)).words := by
  simp only [grown, upTo, if_neg hl, reach, wordsOf]; omega

theorem grown_gas (s : Cx) (e : Nat) : (grown s e).gas ≤ s.gas := by simp only [grown]; omega

theorem satMul_words {k n : Nat} (hk : k ≤ 16) (hn : n < 2 ^ 64) : satMul k (numWords n) = k * wordsOf n := by
  have : numWords n ≤ 2 ^ 59 := by unfold numWords; omega
  have h2 : k * numWords n ≤ 16 * numWords n := Nat.mul_le_mul_right _ hk
  show min (k * numWords n) _ = k * numWords n
  omega

theorem Kept.of_gas {s t : Cx} {g : Nat} (k : Kept { s with gas := g } t) : Kept s t := ⟨k.cp, k.le, k.pre⟩

/-- Converting an offset and growing. -/
theorem sat_touch {f : Nat → M β} {P : β → Cx → Prop} {Q : Cx → Prop} {s : Cx} {off : Word} {len : Nat} (w : WF s)
    (hl : len ≠ 0)
    (h : need s (upTo off.toNat len) ≤ s.gas → Sat (f off.toNat (grown s (upTo off.toNat len))) P Q)
    (h' : s.gas < need s (upTo off.toNat len) → ∀ t, Kept s t → t.logs = s.logs → Q t) :
    Sat ((toUsize off >>= fun o => ensureMemory o len >>= fun _ => f o) s) P Q := by
  have hu : off.toNat + len = upTo off.toNat len := by unfold upTo; rw [if_neg hl]
  apply sat_usize
  · intro ho
    apply sat_ensure w
    · rw [hu]; exact h
    · rw [hu]; exact h'
  · intro ho
    exact h' (need_top w hl (Or.inl ho)) s (Kept.refl w) rfl

theorem need_upTo_zero (s : Cx) (o : Nat) : need s (upTo o 0) = 0 := by
  unfold upTo need; rw [if_pos rfl, reach_zero]; omega

theorem grown_upTo_zero {s : Cx} (h : WF s) (o : Nat) : grown s (upTo o 0) = s := by
  unfold upTo; rw [if_pos rfl, grown_zero h]

theorem doKeccak_refines {s : Cx} (h : WF s) (hash : List UInt8 → Word) (off : Word) (len : Nat) (hl : len < 2 ^ 64) :
    Refines s (doKeccak hash off len s)
      ((pay (view s) (6 * wordsOf len) [(off.toNat, len)]).map fun f => (f, hash (window f.mem off.toNat len))) := by
  rw [pay_grow h _ _ (growAll_one s _ _)]
  unfold doKeccak
  by_cases h0 : len = 0
  · subst h0
    rw [if_pos rfl, need_upTo_zero, if_pos (show 6 * wordsOf 0 + 0 ≤ s.gas from Nat.zero_le _)]
    rw [show ({ s with gas := s.gas - 6 * wordsOf 0 } : Cx) = s from rfl, grown_upTo_zero h]
    exact sat_pure ⟨rfl, h, Kept.refl h, Nat.le_refl _⟩
  · rw [if_neg h0]
    unfold keccakCost
    rw [satMul_words (by omega) hl]
    apply sat_charge
    · intro hc
      have hs1 := h.pay (6 * wordsOf len)
      apply sat_touch hs1 h0
      · intro hn
        have hn' : need s (upTo off.toNat len) ≤ s.gas - 6 * wordsOf len := hn
        have hw := grown_wf hs1 hn
        apply sat_bind
        rw [slice_eq hw (in_reach h0), if_pos (by omega)]
        exact ⟨rfl, hw, (grown_kept hs1 _).of_gas, Nat.le_trans (grown_gas _ _) (Nat.sub_le _ _)⟩
      · intro hn t k hlog
        have hn' : s.gas - 6 * wordsOf len < need s (upTo off.toNat len) := hn
        rw [if_neg (by omega)]
        exact ⟨rfl, k.of_gas, hlog⟩
    · intro hc
      rw [if_neg (by omega)]
      exact ⟨rfl, Kept.refl h, rfl⟩

theorem keccak_refines {s : Cx} (h : WF s) (hash : List UInt8 → Word) (o l : Word) (acct : Option (List UInt8 × Nat)) :
    Refines s (exec hash 0x20 [o, l] acct s) (Spec.step hash 0x20 [o, l] acct (view s)) := by
  have hspec : Spec.step hash 0x20 [o, l] acct (view s) =
    (pay (view s) (6 * wordsOf l.toNat) [(o.toNat, l.toNat)]).map
      fun f => (f, hash (window f.mem o.toNat l.toNat)) := rfl
  rw [hspec]
  show Refines s ((toUsize l >>= fun len => doKeccak hash o len) s) _
  apply sat_usize
  · intro hl
    exact doKeccak_refines h hash o l.toNat hl
  · intro hl
    rw [pay_grow h _ _ (growAll_one s _ _), if_neg (by have := need_top h (o := o.toNat) (l := l.toNat) (by omega) (Or.inr hl); omega)]
    exact ⟨rfl, Kept.refl h, rfl⟩

theorem inputBytes_eq {s : Cx} (h : WF s) : inputBytes s = .ok (inBytes s) s := by
  unfold inputBytes inBytes
  cases hi : s.input with
  | bytes bs => rfl
  | shared a b =>
    dsimp only
    by_cases hab : b ≤ a
    · rw [if_pos hab, show b - a = 0 by omega]; rfl
    · have := h.shr a b hi (by omega)
      have := h.size
      rw [if_neg hab, if_pos (by omega)]

/-- The end of a copy: the memory has been grown and bytes are written. -/
theorem wrote_done {s s1 : Cx} {off : Nat} {bs : List UInt8} (h1 : WF s1) (k : Kept s s1) (hg : s1.gas ≤ s.gas)
    (hb : off + bs.length ≤ 32 * s1.words) :
    some ({ view s1 with mem := overwrite (view s1).mem off bs }, (0 : Word)) = some (view (wrote s1 off bs), 0) ∧
      WF (wrote s1 off bs) ∧ Kept s (wrote s1 off bs) ∧ (wrote s1 off bs).gas ≤ s.gas := by
  refine ⟨by rw [wrote_view h1 hb], wrote_wf h1 hb, k.trans (wrote_kept h1 hb), hg⟩

theorem view_mem_overwrite_nil (s : Cx) (o : Nat) :
    ({ view s with mem := overwrite (view s).mem o [] } : EvmFrame) = view s := by
  rw [overwrite_nil]

/-- CALLDATACOPY and CODECOPY: paying, growing and copying from data of the frame. -/
theorem copy_refines {s : Cx} (h : WF s) (d o l : Word) (fetch : M (List UInt8)) (data : EvmFrame → List UInt8)
    (hf : ∀ t, WF t → fetch t = .ok (data (view t)) t) (hd : ∀ t, WF t → (data (view t)).length < 2 ^ 63) :
    Refines s
      ((toUsize l >>= fun len =>
        if len = 0 then pure 0
        else charge (copyCost len) >>= fun _ => toUsize d >>= fun m => ensureMemory m len >>= fun _ =>
          fetch >>= fun bs => setData m (satUsize o) len bs >>= fun _ => pure (0 : Word)) s)
      ((pay (view s) (3 * wordsOf l.toNat) [(d.toNat, l.toNat)]).map fun f =>
        ({ f with mem := overwrite f.mem d.toNat (window (data f) o.toNat l.toNat) }, 0)) := by
  rw [pay_grow h _ _ (growAll_one s _ _)]
  apply sat_usize
  · intro hl
    by_cases h0 : l.toNat = 0
    · rw [if_pos h0, h0, need_upTo_zero, if_pos (show 3 * wordsOf 0 + 0 ≤ s.gas from Nat.zero_le _),
        show ({ s with gas := s.gas - 3 * wordsOf 0 } : Cx) = s from rfl, grown_upTo_zero h]
      refine sat_pure ⟨?_, h, Kept.refl h, Nat.le_refl _⟩
      simp only [Option.map_some, window_nil, overwrite_nil]
    · rw [if_neg h0]
      unfold copyCost
      rw [satMul_words (by omega) hl]
      apply sat_charge
      · intro hc
        have hs1 := h.pay (3 * wordsOf l.toNat)
        apply sat_touch hs1 h0
        · intro hn
          have hn' : need s (upTo d.toNat l.toNat) ≤ s.gas - 3 * wordsOf l.toNat := hn
          have hw := grown_wf hs1 hn
          apply sat_bind
          rw [hf _ hw]
          apply sat_bind
          rw [setData_eq hw (fun _ => in_reach h0), if_pos (by omega), window_sat (hd _ hw)]
          exact wrote_done hw (grown_kept hs1 _).of_gas (Nat.le_trans (grown_gas _ _) (Nat.sub_le _ _))
            (by rw [window_length]; exact in_reach h0)
        · intro hn t k hlog
          have hn' : s.gas - 3 * wordsOf l.toNat < need s (upTo d.toNat l.toNat) := hn
          rw [if_neg (by omega)]
          exact ⟨rfl, k.of_gas, hlog⟩
      · intro hc
        rw [if_neg (by omega)]
        exact ⟨rfl, Kept.refl h, rfl⟩
  · intro hl
    rw [if_neg (by have := need_top h (o := d.toNat) (l := l.toNat) (by omega) (Or.inr hl); omega)]
    exact ⟨rfl, Kept.refl h, rfl⟩

theorem calldatacopy_refines {s : Cx} (h : WF s) (hash : List UInt8 → Word) (d o l : Word)
    (acct : Option (List UInt8 × Nat)) :
    Refines s (exec hash 0x37 [d, o, l] acct s) (Spec.step hash 0x37 [d, o, l] acct (view s)) :=
  copy_refines h d o l inputBytes EvmFrame.input (fun _ ht => inputBytes_eq ht) (fun _ ht => ht.inBytes_len)

theorem codecopy_refines {s : Cx} (h : WF s) (hash : List UInt8 → Word) (d o l : Word)
    (acct : Option (List UInt8 × Nat)) :
    Refines s (exec hash 0x39 [d, o, l] acct s) (Spec.step hash 0x39 [d, o, l] acct (view s)) :=
  copy_refines h d o l (fun t => .ok t.code t) EvmFrame.code (fun _ _ => rfl) (fun _ ht => ht.code)

theorem mcopy_refines {s : Cx} (h : WF s) (hash : List UInt8 → Word) (d o l : Word)
    (acct : Option (List UInt8 × Nat)) :
    Refines s (exec hash 0x5e [d, o, l] acct s) (Spec.step hash 0x5e [d, o, l] acct (view s)) := by
  have hspec : Spec.step hash 0x5e [d, o, l] acct (view s) =
    (pay (view s) (3 * wordsOf l.toNat) [(d.toNat, l.toNat), (o.toNat, l.toNat)]).map fun f =>
        ({ f with mem := overwrite f.mem d.toNat (window f.mem o.toNat l.toNat) }, 0) := rfl
  rw [hspec, pay_grow h _ _ (growAll_two s _ _ _)]
  show Refines s ((toUsize l >>= fun len => charge (copyCost len) >>= fun _ =>
    if len = 0 then pure 0
    else toUsize d >>= fun dst => toUsize o >>= fun src => ensureMemory (max dst src) len >>= fun _ =>
      slice src len >>= fun bs => put dst bs >>= fun _ => pure (0 : Word)) s) _
  apply sat_usize
  · intro hl
    unfold copyCost
    rw [satMul_words (by omega) hl]
    apply sat_charge
    · intro hc
      have hs1 := h.pay (3 * wordsOf l.toNat)
      have hk1 : Kept s { s with gas := s.gas - 3 * wordsOf l.toNat } := (Kept.refl hs1).of_gas
      by_cases h0 : l.toNat = 0
      · rw [if_pos h0, h0, need_upTo_zero, if_pos (show 3 * wordsOf 0 + 0 ≤ s.gas from Nat.zero_le _),
          show ({ s with gas := s.gas - 3 * wordsOf 0 } : Cx) = s from rfl, grown_upTo_zero h]
        refine sat_pure ⟨?_, h, Kept.refl h, Nat.le_refl _⟩
        simp only [Option.map_some, window_nil, overwrite_nil]
      · rw [if_neg h0]
        have hbig : 2 ^ 64 ≤ d.toNat ∨ 2 ^ 64 ≤ o.toNat →
            s.gas < need s (upTo (max d.toNat o.toNat) l.toNat) := fun hb =>
          need_top h h0 (Or.inl (by omega))
        apply sat_usize
        · intro hd
          apply sat_usize
          · intro ho
            have hu : max d.toNat o.toNat + l.toNat = upTo (max d.toNat o.toNat) l.toNat := by
              unfold upTo; rw [if_neg h0]
            apply sat_ensure hs1
            · rw [hu]
              intro hn
              have hn' : need s (upTo (max d.toNat o.toNat) l.toNat) ≤ s.gas - 3 * wordsOf l.toNat := hn
              have hw := grown_wf hs1 hn
              have hin := in_reach (s := { s with gas := s.gas - 3 * wordsOf l.toNat }) (o := max d.toNat o.toNat) h0
              apply sat_bind
              rw [slice_eq hw (by omega)]
              apply sat_bind
              rw [put_eq hw (fun _ => by rw [window_length]; omega), if_pos (by omega)]
              exact wrote_done hw (grown_kept hs1 _).of_gas (Nat.le_trans (grown_gas _ _) (Nat.sub_le _ _))
                (by rw [window_length]; omega)
            · rw [hu]
              intro hn t k hlog
              have hn' : s.gas - 3 * wordsOf l.toNat < need s (upTo (max d.toNat o.toNat) l.toNat) := hn
              rw [if_neg (by omega)]
              exact ⟨rfl, k.of_gas, hlog⟩
          · intro ho
            rw [if_neg (by have := hbig (Or.inr ho); omega)]
            exact ⟨rfl, hk1, rfl⟩
        · intro hd
          rw [if_neg (by have := hbig (Or.inl hd); omega)]
          exact ⟨rfl, hk1, rfl⟩
    · intro hc
      rw [if_neg (by omega)]
      exact ⟨rfl, Kept.refl h, rfl⟩
  · intro hl
    rw [if_neg (by have := need_top h (o := max d.toNat o.toNat) (l := l.toNat) (by omega) (Or.inr hl); omega)]
    exact ⟨rfl, Kept.refl h, rfl⟩

theorem returndatacopy_refines {s : Cx} (h : WF s) (hash : List UInt8 → Word) (d o l : Word)
    (acct : Option (List UInt8 × Nat)) :
    Refines s (exec hash 0x3e [d, o, l] acct s) (Spec.step hash 0x3e [d, o, l] acct (view s)) := by
  have hspec : Spec.step hash 0x3e [d, o, l] acct (view s) =
    if o.toNat + l.toNat ≤ s.ret.length then
      (pay (view s) (3 * wordsOf l.toNat) [(d.toNat, l.toNat)]).map fun f =>
        ({ f with mem := overwrite f.mem d.toNat (window f.ret o.toNat l.toNat) }, 0)
    else none := by
    show (if (_ : Bool) = true then _ else none) = _
    by_cases hc : o.toNat + l.toNat ≤ s.ret.length
    · rw [if_pos hc, if_pos]
      · rfl
      · simp [Spec.stepAllowed, Spec.arg, view, hc]
    · rw [if_neg hc, if_neg]
      simp [Spec.stepAllowed, Spec.arg, view]; omega
  have hret := h.ret
  rw [hspec, pay_grow h _ _ (growAll_one s _ _)]
  show Refines s ((toUsize l >>= fun len => (get : M Cx) >>= fun s =>
    if s.ret.length < satAdd (satUsize o) len then failWith .OutOfOffset
    else charge (copyCost len) >>= fun _ =>
      if len = 0 then pure 0
      else toUsize d >>= fun m => ensureMemory m len >>= fun _ =>
        put m ((s.ret.drop (satUsize o)).take (satAdd (satUsize o) len - satUsize o)) >>= fun _ => pure (0 : Word)) s) _
  apply sat_usize
  · intro hl
    apply sat_get
    by_cases hr : o.toNat + l.toNat ≤ s.ret.length
    · have ho : satUsize o = o.toNat := by unfold satUsize; omega
      have hsum : satAdd o.toNat l.toNat = o.toNat + l.toNat := by unfold satAdd; omega
      rw [ho, hsum, if_neg (by omega), if_pos hr]
      unfold copyCost
      rw [satMul_words (by omega) hl]
      apply sat_charge
      · intro hc
        have hs1 := h.pay (3 * wordsOf l.toNat)
        by_cases h0 : l.toNat = 0
        · rw [if_pos h0, h0, need_upTo_zero, if_pos (show 3 * wordsOf 0 + 0 ≤ s.gas from Nat.zero_le _),
            show ({ s with gas := s.gas - 3 * wordsOf 0 } : Cx) = s from rfl, grown_upTo_zero h]
          refine sat_pure ⟨?_, h, Kept.refl h, Nat.le_refl _⟩
          simp only [Option.map_some, window_nil, overwrite_nil]
        · rw [if_neg h0]
          apply sat_touch hs1 h0
          · intro hn
            have hn' : need s (upTo d.toNat l.toNat) ≤ s.gas - 3 * wordsOf l.toNat := hn
            have hw := grown_wf hs1 hn
            have hin := in_reach (s := { s with gas := s.gas - 3 * wordsOf l.toNat }) (o := d.toNat) h0
            have hwin : (s.ret.drop o.toNat).take (o.toNat + l.toNat - o.toNat) = window s.ret o.toNat l.toNat := by
              rw [window_inside hr, show o.toNat + l.toNat - o.toNat = l.toNat by omega]
            rw [hwin]
            apply sat_bind
            rw [put_eq hw (fun _ => by rw [window_length]; omega), if_pos (by omega)]
            exact wrote_done hw (grown_kept hs1 _).of_gas (Nat.le_trans (grown_gas _ _) (Nat.sub_le _ _))
              (by rw [window_length]; omega)
          · intro hn t k hlog
            have hn' : s.gas - 3 * wordsOf l.toNat < need s (upTo d.toNat l.toNat) := hn
            rw [if_neg (by omega)]
            exact ⟨rfl, k.of_gas, hlog⟩
      · intro hc
        rw [if_neg (by omega)]
        exact ⟨rfl, Kept.refl h, rfl⟩
    · rw [if_pos (by unfold satAdd satUsize; omega), if_neg hr]
      exact sat_fail ⟨rfl, Kept.refl h, rfl⟩
  · intro hl
    rw [if_neg (by omega)]
    exact ⟨rfl, Kept.refl h, rfl⟩

theorem fromBe_beWord (bs : List UInt8) : fromBeSlice bs = Spec.beWord bs := by
  unfold fromBeSlice Spec.beWord
  congr 2
  funext a b
  rw [Nat.mul_comm]

theorem calldataload_refines {s : Cx} (h : WF s) (hash : List UInt8 → Word) (o : Word)
    (acct : Option (List UInt8 × Nat)) :
    Refines s (exec hash 0x35 [o] acct s) (Spec.step hash 0x35 [o] acct (view s)) := by
  have hspec : Spec.step hash 0x35 [o] acct (view s) =
    (pay (view s) 0 []).map fun f => (f, Spec.beWord (window f.input o.toNat 32)) := rfl
  have hn : need s 0 = 0 := by unfold need; rw [reach_zero]; omega
  rw [hspec, pay_grow h _ _ (growAll_nil s), hn, if_pos (Nat.zero_le _),
    show ({ s with gas := s.gas - 0 } : Cx) = s from rfl, grown_zero h]
  have hlen := h.inBytes_len
  have hsat := window_sat hlen o 32
  show Refines s (calldataload [o] s) _
  unfold calldataload
  have ha : atSp [o] 0 = o := rfl
  dsimp only
  rw [ha, h.inputLen]
  rw [Option.map_some, show (view s).input = inBytes s from rfl, ← hsat]
  split
  · rename_i hlt
    apply sat_bind
    rw [inputBytes_eq h]
    refine sat_pure ⟨?_, h, Kept.refl h, Nat.le_refl _⟩
    congr 2
    rw [fromBe_beWord]
    congr 1
    rcases Nat.le_total 32 ((inBytes s).length - satUsize o) with h1 | h1
    · rw [Nat.min_eq_left h1, window_inside (by omega)]; simp
    · rw [Nat.min_eq_right h1, window_over (by omega) (by omega), List.take_of_length_le (by simp)]
  · rename_i hlt
    refine ⟨?_, h, Kept.refl h, Nat.le_refl _⟩
    rw [window_beyond (by omega), fromBe_beWord]

/-- Checking the memory before a load or store. -/
theorem sat_check {f : Nat → M β} {P : β → Cx → Prop} {Q : Cx → Prop} {s : Cx} {off : Word} {len : BitVec 64} (w : WF s)
    (h0 : 0 < len.toNat) (hl : len.toNat ≤ 32)
    (h : need s (upTo off.toNat len.toNat) ≤ s.gas → Sat (f off.toNat (grown s (upTo off.toNat len.toNat))) P Q)
    (h' : s.gas < need s (upTo off.toNat len.toNat) → ∀ t, Kept s t → t.logs = s.logs → Q t) :
    Sat ((checkMem off len >>= f) s) P Q := by
  have hu : upTo off.toNat len.toNat = off.toNat + len.toNat := by unfold upTo; rw [if_neg (by omega)]
  rw [hu] at h h'
  have hw := w.words_lt
  have hsz := w.size
  have hm : (BitVec.ofNat 64 (s.mem.buf.length - s.mem.cp)).toNat = 32 * s.words := by
    rw [BitVec.toNat_ofNat, Nat.mod_eq_of_lt (by omega)]; omega
  apply sat_bind
  unfold checkMem
  cases he : ensureMem off len (BitVec.ofNat 64 (s.mem.buf.length - s.mem.cp)) with
  | fast a =>
    obtain ⟨h1, h2⟩ := C23_fast_in_bounds off len _ h0 (by omega) (by rw [hm]; omega) a he
    rw [hm] at h2
    have hr : reach s (off.toNat + len.toNat) = s.words := by unfold reach wordsOf; omega
    have hn : need s (off.toNat + len.toNat) = 0 := by unfold need; rw [hr]; omega
    have hgr : grown s (off.toNat + len.toNat) = s := by
      unfold grown; rw [hn, hr, ← w.paid]; simp
    rw [hgr, hn] at h
    show Sat (f a.toNat s) P Q
    rw [h1]
    exact h (Nat.zero_le _)
  | resize n a =>
    obtain ⟨_, h3 | ⟨h3, h4, _⟩⟩ := C23_resize_request off len _ h0 (by omega) n a he
    · apply sat_ensure w
      · rw [Nat.add_zero, h3.1]
        intro hn
        show Sat (f a.toNat (grown s (off.toNat + len.toNat))) P Q
        rw [h3.2]
        exact h hn
      · rw [Nat.add_zero, h3.1]
        exact h'
    · have hb1 := need_big w (e := n.toNat + 0) (by omega)
      have hb2 := need_big w (e := off.toNat + len.toNat) (by omega)
      apply sat_ensure w
      · intro hn; omega
      · intro _; exact h' hb2

theorem mload_refines {s : Cx} (h : WF s) (hash : List UInt8 → Word) (o : Word)
    (acct : Option (List UInt8 × Nat)) :
    Refines s (exec hash 0x51 [o] acct s) (Spec.step hash 0x51 [o] acct (view s)) := by
  have hspec : Spec.step hash 0x51 [o] acct (view s) =
    (pay (view s) 0 [(o.toNat, 32)]).map fun f => (f, Spec.beWord (window f.mem o.toNat 32)) := rfl
  rw [hspec, pay_grow h _ _ (growAll_one s _ _), show ({ s with gas := s.gas - 0 } : Cx) = s from rfl, Nat.zero_add]
  show Refines s ((checkMem o 32 >>= fun off => slice off 32 >>= fun bs => pure (bswap (nativeLoad true bs))) s) _
  apply sat_check h (len := 32) (by decide) (by decide)
  · intro hn
    have hn : need s (upTo o.toNat 32) ≤ s.gas := hn
    have hw := grown_wf h hn
    apply sat_bind
    have e : ((32 : BitVec 64).toNat) = 32 := rfl
    rw [e, slice_eq hw (in_reach (by decide)), if_pos hn]
    refine sat_pure ⟨?_, hw, grown_kept h _, grown_gas _ _⟩
    have := nativeLoad_word true (window_length (view (grown s (upTo o.toNat 32))).mem o.toNat 32)
    rw [if_pos rfl] at this
    rw [this]; rfl
  · intro hn t k hlog
    have hn : s.gas < need s (upTo o.toNat 32) := hn
    rw [if_neg (by omega)]
    exact ⟨rfl, k, hlog⟩

theorem mstore_refines {s : Cx} (h : WF s) (hash : List UInt8 → Word) (o v : Word)
    (acct : Option (List UInt8 × Nat)) :
    Refines s (exec hash 0x52 [o, v] acct s) (Spec.step hash 0x52 [o, v] acct (view s)) := by
  have hspec : Spec.step hash 0x52 [o, v] acct (view s) =
    (pay (view s) 0 [(o.toNat, 32)]).map
      fun f => ({ f with mem := overwrite f.mem o.toNat (Spec.beBytes v) }, 0) := rfl
  rw [hspec, pay_grow h _ _ (growAll_one s _ _), show ({ s with gas := s.gas - 0 } : Cx) = s from rfl, Nat.zero_add]
  show Refines s ((checkMem o 32 >>= fun off => put off (nativeStore true (bswap v)) >>= fun _ => pure (0 : Word)) s) _
  have hv := nativeStore_bytes true v
  rw [if_pos rfl] at hv
  rw [hv]
  apply sat_check h (len := 32) (by decide) (by decide)
  · intro hn
    have hn : need s (upTo o.toNat 32) ≤ s.gas := hn
    have hw := grown_wf h hn
    have hb : o.toNat + (Spec.beBytes v).length ≤ 32 * (grown s (upTo o.toNat 32)).words := by
      rw [beBytes_length]; exact in_reach (by decide)
    apply sat_bind
    have e : ((32 : BitVec 64).toNat) = 32 := rfl
    rw [e, put_eq hw (fun _ => hb), if_pos hn]
    exact wrote_done hw (grown_kept h _) (grown_gas _ _) hb
  · intro hn t k hlog
    have hn : s.gas < need s (upTo o.toNat 32) := hn
    rw [if_neg (by omega)]
    exact ⟨rfl, k, hlog⟩

theorem mstore8_refines {s : Cx} (h : WF s) (hash : List UInt8 → Word) (o v : Word)
    (acct : Option (List UInt8 × Nat)) :
    Refines s (exec hash 0x53 [o, v] acct s) (Spec.step hash 0x53 [o, v] acct (view s)) := by
  have hspec : Spec.step hash 0x53 [o, v] acct (view s) =
    (pay (view s) 0 [(o.toNat, 1)]).map
      fun f => ({ f with mem := overwrite f.mem o.toNat [UInt8.ofNat v.toNat] }, 0) := rfl
  rw [hspec, pay_grow h _ _ (growAll_one s _ _), show ({ s with gas := s.gas - 0 } : Cx) = s from rfl, Nat.zero_add]
  show Refines s ((checkMem o 1 >>= fun off => put off [UInt8.ofNat v.toNat] >>= fun _ => pure (0 : Word)) s) _
  apply sat_check h (len := 1) (by decide) (by decide)
  · intro hn
    have hn : need s (upTo o.toNat 1) ≤ s.gas := hn
    have hw := grown_wf h hn
    have hb : o.toNat + [UInt8.ofNat v.toNat].length ≤ 32 * (grown s (upTo o.toNat 1)).words := by
      show o.toNat + 1 ≤ _
      exact in_reach (by decide)
    apply sat_bind
    have e : ((1 : BitVec 64).toNat) = 1 := rfl
    rw [e, put_eq hw (fun _ => hb), if_pos hn]
    exact wrote_done hw (grown_kept h _) (grown_gas _ _) hb
  · intro hn t k hlog
    have hn : s.gas < need s (upTo o.toNat 1) := hn
    rw [if_neg (by omega)]
    exact ⟨rfl, k, hlog⟩

theorem loadAccount_sat {f : List UInt8 → M β} {P : β → Cx → Prop} {Q : Cx → Prop} {s : Cx} {code : List UInt8} {cold : Nat}
    (h : cold ≤ s.gas → Sat (f code { s with gas := s.gas - cold }) P Q) (h' : s.gas < cold → Q s) :
    Sat ((loadAccount (some (code, cold)) >>= f) s) P Q := by
  apply sat_bind
  unfold loadAccount
  dsimp only
  split
  · exact h' (by omega)
  · apply sat_charge
    · intro hc; exact h hc
    · intro hc; exact h' hc

theorem extcodecopy_refines {s : Cx} (h : WF s) (hash : List UInt8 → Word) (x d o l : Word)
    (acct : Option (List UInt8 × Nat)) (ha : ∀ p, acct = some p → p.1.length < 2 ^ 63) :
    Refines s (exec hash 0x3c [x, d, o, l] acct s) (Spec.step hash 0x3c [x, d, o, l] acct (view s)) := by
  show Refines s ((toUsize l >>= fun len => charge (copyCost len) >>= fun _ =>
    extcodecopyDest d len >>= fun m =>
      loadAccount acct >>= fun code =>
        setData m (min (satUsize o) code.length) len code >>= fun _ => pure (0 : Word)) s) _
  cases acct with
  | none =>
    have hspec : Spec.step hash 0x3c [x, d, o, l] none (view s) = none := rfl
    rw [hspec]
    apply sat_usize
    · intro hl
      apply sat_charge
      · intro hc
        have hs1 := h.pay (copyCost l.toNat)
        apply sat_bind
        unfold extcodecopyDest
        split
        · exact ⟨rfl, (Kept.refl hs1).of_gas, rfl⟩
        · rename_i h0
          apply sat_touch hs1 h0
          · intro hn
            exact ⟨rfl, (grown_kept hs1 _).of_gas, rfl⟩
          · intro hn t k hlog
            exact ⟨rfl, k.of_gas, hlog⟩
      · intro hc; exact ⟨rfl, Kept.refl h, rfl⟩
    · intro hl; exact ⟨rfl, Kept.refl h, rfl⟩
  | some p =>
    obtain ⟨code, cold⟩ := p
    have hcl := ha _ rfl
    have hspec : Spec.step hash 0x3c [x, d, o, l] (some (code, cold)) (view s) =
      (pay (view s) (3 * wordsOf l.toNat + cold) [(d.toNat, l.toNat)]).map fun f =>
        ({ f with mem := overwrite f.mem d.toNat (window code o.toNat l.toNat) }, 0) := rfl
    rw [hspec, pay_grow h _ _ (growAll_one s _ _)]
    have hwin : window code (min (satUsize o) code.length) l.toNat = window code o.toNat l.toNat := by
      rw [← window_sat hcl]
      rcases Nat.le_total (satUsize o) code.length with h1 | h1
      · rw [Nat.min_eq_left h1]
      · rw [Nat.min_eq_right h1, window_beyond (Nat.le_refl _), window_beyond h1]
    apply sat_usize
    · intro hl
      unfold copyCost
      rw [satMul_words (by omega) hl]
      apply sat_charge
      · intro hc
        have hs1 := h.pay (3 * wordsOf l.toNat)
        apply sat_bind
        unfold extcodecopyDest
        by_cases h0 : l.toNat = 0
        · rw [if_pos h0]
          apply sat_pure
          apply loadAccount_sat
          · intro hcold
            have hcold : cold ≤ s.gas - 3 * wordsOf l.toNat := hcold
            have hs2 := hs1.pay cold
            apply sat_bind
            have hnil : window code o.toNat l.toNat = [] := by rw [h0]; rfl
            have hn0 : need s (upTo d.toNat l.toNat) = 0 := by rw [h0]; exact need_upTo_zero _ _
            have hg0 : grown { s with gas := s.gas - (3 * wordsOf l.toNat + cold) } (upTo d.toNat l.toNat) =
                { s with gas := s.gas - (3 * wordsOf l.toNat + cold) } := by
              rw [show upTo d.toNat l.toNat = upTo d.toNat 0 by rw [h0]]
              exact grown_upTo_zero (h.pay _) _
            rw [setData_eq hs2 (fun hne => absurd h0 hne), hwin, hnil, wrote_nil, if_pos (by omega), hg0]
            refine sat_pure ⟨?_, hs2, (Kept.refl hs2).of_gas.of_gas, by dsimp only; omega⟩
            simp only [Option.map_some, overwrite_nil]
            congr 2
            rw [Nat.sub_sub]
          · intro hcold
            have hcold : s.gas - 3 * wordsOf l.toNat < cold := hcold
            rw [if_neg (by omega)]
            exact ⟨rfl, (Kept.refl hs1).of_gas, rfl⟩
        · rw [if_neg h0]
          apply sat_touch hs1 h0
          · intro hn
            have hn' : need s (upTo d.toNat l.toNat) ≤ s.gas - 3 * wordsOf l.toNat := hn
            have hw := grown_wf hs1 hn
            apply sat_pure
            apply loadAccount_sat
            · intro hcold
              have hcold : cold ≤ s.gas - 3 * wordsOf l.toNat - need s (upTo d.toNat l.toNat) := hcold
              have hs2 := hw.pay cold
              apply sat_bind
              have hin := in_reach (s := { s with gas := s.gas - 3 * wordsOf l.toNat }) (o := d.toNat) h0
              rw [setData_eq hs2 (fun _ => hin), hwin, if_pos (by omega)]
              have hst : grown { s with gas := s.gas - (3 * wordsOf l.toNat + cold) } (upTo d.toNat l.toNat) =
                  { grown { s with gas := s.gas - 3 * wordsOf l.toNat } (upTo d.toNat l.toNat) with
                    gas := (grown { s with gas := s.gas - 3 * wordsOf l.toNat } (upTo d.toNat l.toNat)).gas - cold } := by
                unfold grown
                congr 1
                show s.gas - (3 * wordsOf l.toNat + cold) - need s _ = s.gas - 3 * wordsOf l.toNat - need s _ - cold
                omega
              rw [hst]
              refine wrote_done hs2 ((grown_kept hs1 _).trans (Kept.refl hs2).of_gas).of_gas ?_
                (by rw [window_length]; exact hin)
              exact Nat.le_trans (Nat.sub_le _ _) (Nat.le_trans (grown_gas _ _) (Nat.sub_le _ _))
            · intro hcold
              have hcold : s.gas - 3 * wordsOf l.toNat - need s (upTo d.toNat l.toNat) < cold := hcold
              rw [if_neg (by omega)]
              exact ⟨rfl, (grown_kept hs1 _).of_gas, rfl⟩
          · intro hn t k hlog
            have hn' : s.gas - 3 * wordsOf l.toNat < need s (upTo d.toNat l.toNat) := hn
            rw [if_neg (by omega)]
            exact ⟨rfl, k.of_gas, hlog⟩
      · intro hc
        rw [if_neg (by omega)]
        exact ⟨rfl, Kept.refl h, rfl⟩
    · intro hl
      rw [if_neg (by have := need_top h (o := d.toNat) (l := l.toNat) (by omega) (Or.inr hl); omega)]
      exact ⟨rfl, Kept.refl h, rfl⟩

end Verif.Frames
