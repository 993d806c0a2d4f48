import Verif.Model.Frames
/-!
# Lemmas about the memory builtins
-/

namespace Verif.Frames

open Verif.Builtins (Err satUsize satAdd)
open Verif.Spec (LogEntry Act Rules EvmFrame wordsOf memGas window pay expand overwrite grow growAll)

/-! ## Costs -/

/-- `C_mem` of `w` words. -/
def wordGas (w : Nat) : Nat := 3 * w + w * w / 512

theorem wordsOf_mul (w : Nat) : wordsOf (32 * w) = w := by unfold wordsOf; omega

theorem memGas_mul (w : Nat) : memGas (32 * w) = wordGas w := by unfold memGas wordGas; rw [wordsOf_mul]

theorem wordGas_mono {a b : Nat} (h : a ≤ b) : wordGas a ≤ wordGas b := by
  unfold wordGas
  have := Nat.div_le_div_right (c := 512) (Nat.mul_le_mul h h)
  omega

theorem wordGas_big {w : Nat} (h : 2 ^ 32 ≤ w) : 2 ^ 55 < wordGas w := by
  have h1 := wordGas_mono h
  have h2 : wordGas (2 ^ 32) = 3 * 2 ^ 32 + 2 ^ 55 := by decide
  omega

theorem memoryCost_small {w : Nat} (h : w < 2 ^ 32) : memoryCost w = wordGas w := by
  unfold memoryCost wordGas satAdd satMul
  have h1 : w * w ≤ 2 ^ 32 * w := Nat.mul_le_mul_right _ (Nat.le_of_lt h)
  have h3 : w * w < 2 ^ 64 - 1 := by omega
  omega

theorem memoryCost_big {w : Nat} (h : 2 ^ 32 ≤ w) : 2 ^ 55 < memoryCost w := by
  unfold memoryCost satAdd satMul
  have h1 : 2 ^ 32 * 2 ^ 32 ≤ w * w := Nat.mul_le_mul h h
  omega

/-! ## Well-formed contexts -/

/-- What holds of a context between builtins: the buffer ends with the frame's whole words, which were paid for; the
gas left and what was paid for all memory is bounded; call data lies before the frame's memory; data is not longer than
a Rust slice can be. -/
structure WF (s : Cx) : Prop where
  size : s.mem.buf.length = s.mem.cp + 32 * s.words
  paid : s.paid = wordGas s.words
  room : 3 * s.mem.cp + 32 * (s.gas + wordGas s.words) ≤ 2 ^ 60
  inp : ∀ bs, s.input = .bytes bs → bs.length < 2 ^ 63
  shr : ∀ a b, s.input = .shared a b → a < b → b ≤ s.mem.cp
  code : s.code.length < 2 ^ 63
  ret : s.ret.length < 2 ^ 63

theorem WF.words_lt {s : Cx} (h : WF s) : s.words < 2 ^ 32 := by
  rcases Nat.lt_or_ge s.words (2 ^ 32) with h1 | h1
  · exact h1
  · have := wordGas_big h1; have := h.room; omega

theorem WF.gas_le {s : Cx} (h : WF s) : s.gas + wordGas s.words ≤ 2 ^ 55 := by have := h.room; omega

theorem three_le_wordGas (w : Nat) : 3 * w ≤ wordGas w := by unfold wordGas; omega

theorem WF.buf_lt {s : Cx} (h : WF s) : 3 * s.mem.buf.length + 32 * s.gas ≤ 2 ^ 60 := by
  have := h.room; have := h.size; have := three_le_wordGas s.words; omega

/-- The call data of a context. -/
def inBytes (s : Cx) : List UInt8 :=
  match s.input with
  | .bytes bs => bs
  | .shared a b => (s.mem.buf.drop a).take (b - a)

/-- The frame of a context. -/
def view (s : Cx) : EvmFrame :=
  { gas := s.gas, mem := s.mem.buf.drop s.mem.cp, input := inBytes s, code := s.code, ret := s.ret
    static := s.static, logs := s.logs }

theorem WF.view_len {s : Cx} (h : WF s) : (view s).mem.length = 32 * s.words := by
  have := h.size; unfold view; simp; omega

theorem WF.inBytes_len {s : Cx} (h : WF s) : (inBytes s).length < 2 ^ 63 := by
  unfold inBytes
  split
  · exact h.inp _ ‹_›
  · have := h.buf_lt; simp; omega

theorem WF.inputLen {s : Cx} (h : WF s) : inputLen s = (inBytes s).length := by
  unfold Frames.inputLen inBytes
  cases hi : s.input with
  | bytes bs => rfl
  | shared a b =>
    simp only [List.length_take, List.length_drop]
    have := h.size
    by_cases hab : a < b
    · have := h.shr a b hi hab; omega
    · omega

/-- Nothing before the frame's memory changed. -/
structure Kept (s t : Cx) : Prop where
  cp : t.mem.cp = s.mem.cp
  le : s.mem.cp ≤ t.mem.buf.length
  pre : t.mem.buf.take s.mem.cp = s.mem.buf.take s.mem.cp

theorem Kept.refl {s : Cx} (h : WF s) : Kept s s := ⟨rfl, by have := h.size; omega, rfl⟩

theorem Kept.trans {s t u : Cx} (h : Kept s t) (g : Kept t u) : Kept s u := by
  refine ⟨g.cp.trans h.cp, ?_, ?_⟩
  · have := g.le; rw [h.cp] at this; exact this
  · have := g.pre; rw [h.cp] at this; exact this.trans h.pre

theorem Kept.inBytes {s t : Cx} (h : WF s) (k : Kept s t) (hi : t.input = s.input) : inBytes t = inBytes s := by
  unfold Frames.inBytes
  rw [hi]
  split
  · rfl
  · rename_i a b hab
    by_cases hlt : a < b
    · have hb := h.shr a b hab hlt
      have e (l : List UInt8) : (l.drop a).take (b - a) = ((l.take s.mem.cp).drop a).take (b - a) := by
        rw [List.drop_take, List.take_take, Nat.min_eq_left (by omega)]
      rw [e t.mem.buf, e s.mem.buf, k.pre]
    · rw [show b - a = 0 by omega]; simp

/-! ## Growing -/

/-- The words of the memory once `e` bytes are reached. -/
def reach (s : Cx) (e : Nat) : Nat := max s.words (wordsOf e)

/-- What growing costs. -/
def need (s : Cx) (e : Nat) : Nat := wordGas (reach s e) - wordGas s.words

/-- The context grown so that it reaches `e` bytes. -/
def grown (s : Cx) (e : Nat) : Cx :=
  { s with
    gas := s.gas - need s e, words := reach s e, paid := wordGas (reach s e)
    mem := { s.mem with buf := s.mem.buf ++ List.replicate (32 * reach s e - 32 * s.words) 0 } }

theorem need_big {s : Cx} (h : WF s) {e : Nat} (he : 2 ^ 37 < e) : s.gas < need s e := by
  have : 2 ^ 32 ≤ reach s e := by unfold reach wordsOf; omega
  have := wordGas_big this
  have := h.gas_le
  unfold need; omega

theorem reach_ge (s : Cx) (e : Nat) : s.words ≤ reach s e := Nat.le_max_left _ _

theorem grown_wf {s : Cx} (h : WF s) {e : Nat} (he : need s e ≤ s.gas) : WF (grown s e) := by
  have hr := reach_ge s e
  have hw := wordGas_mono hr
  refine ⟨?_, rfl, ?_, h.inp, h.shr, h.code, h.ret⟩
  · have := h.size
    simp only [grown, List.length_append, List.length_replicate]; omega
  · have := h.room
    simp only [grown]; unfold need at *; omega

theorem grown_kept {s : Cx} (h : WF s) (e : Nat) : Kept s (grown s e) := by
  have := h.size
  refine ⟨rfl, by simp only [grown, List.length_append]; omega, ?_⟩
  simp only [grown]
  rw [List.take_append_of_le_length (by omega)]

theorem grown_view {s : Cx} (h : WF s) (e : Nat) :
    view (grown s e) = { view s with gas := s.gas - need s e, mem := expand (view s).mem (32 * reach s e) } := by
  have hk := Kept.inBytes h (grown_kept h e) rfl
  have := h.size
  unfold view at *
  simp only [grown] at *
  rw [hk]
  congr 1
  unfold expand
  rw [List.drop_append_of_le_length (by omega)]
  congr 2
  simp only [List.length_drop]; omega

theorem ensure_eq {s : Cx} (h : WF s) (off len : Nat) :
    ensureMemory off len s =
      if need s (off + len) ≤ s.gas then .ok () (grown s (off + len))
      else .error (.err .MemoryOOG)
        { s with words := numWords (satAdd off len), paid := memoryCost (numWords (satAdd off len)) } := by
  have hw := h.words_lt
  have hg := h.gas_le
  unfold ensureMemory
  dsimp only
  by_cases hbig : 2 ^ 37 < off + len
  · have hn := need_big h hbig
    have hw2 : 2 ^ 32 ≤ numWords (satAdd off len) := by unfold numWords satAdd; omega
    have hm := memoryCost_big hw2
    rw [if_pos (by omega), h.paid, if_neg (by omega), if_neg (by omega), if_neg (by omega)]
  · have hs : satAdd off len = off + len := by unfold satAdd; omega
    rw [hs]
    have hwn : numWords (off + len) = wordsOf (off + len) := rfl
    by_cases hlt : s.words < numWords (off + len)
    · rw [if_pos hlt]
      have hr : reach s (off + len) = numWords (off + len) := by unfold reach; rw [← hwn]; omega
      have hmono : wordGas s.words ≤ wordGas (reach s (off + len)) := wordGas_mono (by omega)
      by_cases hw3 : numWords (off + len) < 2 ^ 32
      · rw [memoryCost_small hw3, h.paid, ← hr, if_neg (by omega)]
        have hne : wordGas (reach s (off + len)) - wordGas s.words = need s (off + len) := rfl
        rw [hne]
        split
        · rename_i hle
          unfold resize
          have hsz := h.size
          have hroom := h.room
          have := three_le_wordGas (reach s (off + len))
          have hfit : s.mem.cp + reach s (off + len) * 32 < 2 ^ 63 := by unfold need at hle; omega
          dsimp only
          rw [if_pos hfit, List.take_of_length_le (by omega)]
          unfold grown
          congr 4
          congr 1
          omega
        · rfl
      · have hm := memoryCost_big (Nat.le_of_not_lt hw3)
        have hm2 := wordGas_big (Nat.le_of_not_lt hw3)
        have hne : s.gas < need s (off + len) := by unfold need; rw [hr]; omega
        rw [h.paid, if_neg (by omega), if_neg (by omega), if_neg (by omega)]
    · rw [if_neg hlt]
      have hr : reach s (off + len) = s.words := by unfold reach; rw [← hwn]; omega
      have hne : need s (off + len) = 0 := by unfold need; rw [hr]; omega
      rw [if_pos (by omega)]
      unfold grown
      rw [hne, hr, ← h.paid]
      simp

/-! ## Data -/

theorem window_length (d : List UInt8) (o l : Nat) : (window d o l).length = l := by unfold window; simp

theorem window_getElem? (d : List UInt8) (o l j : Nat) :
    (window d o l)[j]? = if j < l then some (d[o + j]?.getD 0) else none := by
  unfold window
  rw [List.getElem?_map]
  by_cases h : j < l
  · rw [if_pos h, List.getElem?_range h]; rfl
  · rw [if_neg h, List.getElem?_eq_none (by simp; omega)]; rfl

theorem window_inside {d : List UInt8} {o l : Nat} (h : o + l ≤ d.length) : window d o l = (d.drop o).take l := by
  apply List.ext_getElem?
  intro j
  rw [window_getElem?, List.getElem?_take]
  split
  · rw [List.getElem?_drop, List.getElem?_eq_getElem (by omega)]; rfl
  · rfl

theorem window_beyond {d : List UInt8} {o l : Nat} (h : d.length ≤ o) : window d o l = List.replicate l 0 := by
  apply List.ext_getElem?
  intro j
  rw [window_getElem?, List.getElem?_replicate, List.getElem?_eq_none (by omega)]
  rfl

theorem window_over {d : List UInt8} {o l : Nat} (h : d.length ≤ o + l) (ho : o ≤ d.length) :
    window d o l = d.drop o ++ List.replicate (l - (d.length - o)) 0 := by
  apply List.ext_getElem?
  intro j
  rw [window_getElem?, List.getElem?_append, List.length_drop, List.getElem?_drop, List.getElem?_replicate]
  by_cases h1 : j < d.length - o
  · rw [if_pos h1, if_pos (by omega), List.getElem?_eq_getElem (by omega)]; rfl
  · rw [if_neg h1, List.getElem?_eq_none (show d.length ≤ o + j by omega)]
    by_cases h2 : j < l
    · rw [if_pos h2, if_pos (by omega)]; rfl
    · rw [if_neg h2, if_neg (by omega)]

theorem window_sat {d : List UInt8} (hd : d.length < 2 ^ 63) (w : Word) (l : Nat) :
    window d (satUsize w) l = window d w.toNat l := by
  unfold satUsize
  by_cases h : w.toNat < 2 ^ 63
  · rw [Nat.min_eq_left (by omega)]
  · rw [window_beyond (by omega), window_beyond (by omega)]

theorem window_nil (d : List UInt8) (o : Nat) : window d o 0 = [] := rfl

/-- The context with bytes written to memory. -/
def wrote (s : Cx) (off : Nat) (bs : List UInt8) : Cx :=
  { s with
    mem := { s.mem with
      buf := s.mem.buf.take (s.mem.cp + off) ++ bs ++ s.mem.buf.drop (s.mem.cp + off + bs.length) } }

theorem wrote_nil (s : Cx) (off : Nat) : wrote s off [] = s := by
  unfold wrote; simp

theorem overwrite_nil (m : List UInt8) (o : Nat) : overwrite m o [] = m := by
  unfold overwrite; simp

theorem wrote_length {s : Cx} {off : Nat} {bs : List UInt8} (h : WF s) (hb : off + bs.length ≤ 32 * s.words) :
    (wrote s off bs).mem.buf.length = s.mem.buf.length := by
  have := h.size
  simp only [wrote, List.length_append, List.length_take, List.length_drop]
  omega

theorem wrote_kept {s : Cx} {off : Nat} {bs : List UInt8} (h : WF s) (hb : off + bs.length ≤ 32 * s.words) :
    Kept s (wrote s off bs) := by
  have hs := h.size
  refine ⟨rfl, by rw [wrote_length h hb]; omega, ?_⟩
  simp only [wrote, List.append_assoc]
  rw [List.take_append_of_le_length (by simp; omega), List.take_take, Nat.min_eq_left (by omega)]

theorem wrote_wf {s : Cx} {off : Nat} {bs : List UInt8} (h : WF s) (hb : off + bs.length ≤ 32 * s.words) :
    WF (wrote s off bs) :=
  ⟨by rw [wrote_length h hb]; exact h.size, h.paid, h.room, h.inp, h.shr, h.code, h.ret⟩

theorem wrote_view {s : Cx} {off : Nat} {bs : List UInt8} (h : WF s) (hb : off + bs.length ≤ 32 * s.words) :
    view (wrote s off bs) = { view s with mem := overwrite (view s).mem off bs } := by
  have hk := Kept.inBytes h (wrote_kept h hb) rfl
  have hs := h.size
  unfold view at *
  simp only [wrote] at *
  rw [hk]
  congr 1
  unfold overwrite
  rw [List.append_assoc, List.append_assoc, List.drop_append_of_le_length (by simp; omega), List.drop_take,
    List.drop_drop, show s.mem.cp + off - s.mem.cp = off by omega, Nat.add_assoc]

theorem put_eq {s : Cx} {off : Nat} {bs : List UInt8} (h : WF s) (hb : bs ≠ [] → off + bs.length ≤ 32 * s.words) :
    put off bs s = .ok () (wrote s off bs) := by
  unfold put
  split
  · rename_i he
    rw [he, wrote_nil]
  · rename_i hne
    have := hb hne
    have := h.size
    rw [if_pos (by omega)]
    rfl

theorem slice_eq {s : Cx} {off len : Nat} (h : WF s) (hb : off + len ≤ 32 * s.words) :
    slice off len s = .ok (window (view s).mem off len) s := by
  have := h.size
  unfold slice
  rw [if_pos (by omega), window_inside (by rw [h.view_len]; omega)]
  unfold view
  rw [List.drop_drop]

theorem wrote_wrote {s : Cx} {off : Nat} {a b : List UInt8} (h : WF s)
    (hb : off + (a ++ b).length ≤ 32 * s.words) :
    wrote (wrote s off a) (off + a.length) b = wrote s off (a ++ b) := by
  have hs := h.size
  rw [List.length_append] at hb
  unfold wrote
  congr 2
  dsimp only
  have hl : (s.mem.buf.take (s.mem.cp + off) ++ a).length = s.mem.cp + (off + a.length) := by
    simp; omega
  rw [List.take_append_of_le_length (by omega), List.take_of_length_le (by omega), List.drop_append, hl,
    List.drop_of_length_le (by omega), List.drop_drop]
  simp only [List.length_append, List.nil_append, List.append_assoc]
  congr 4
  congr 1
  omega

theorem setData_eq {s : Cx} {dst src len : Nat} {data : List UInt8} (h : WF s)
    (hb : len ≠ 0 → dst + len ≤ 32 * s.words) :
    setData dst src len data s = .ok () (wrote s dst (window data src len)) := by
  unfold setData
  split
  · rename_i h0
    rw [h0, window_nil, wrote_nil]; rfl
  · rename_i h0
    have hb := hb h0
    split
    · rename_i hle
      rw [window_beyond hle]
      exact put_eq h (fun _ => by simp; omega)
    · rename_i hlt
      by_cases hin : src + len ≤ data.length
      · rw [Nat.min_eq_left hin, show src + len - src = len by omega, Nat.sub_self]
        have h1 := put_eq (s := s) (off := dst) (bs := (data.drop src).take len) h
          (fun _ => by simp; omega)
        have h2 : put (dst + len) (List.replicate 0 0) (wrote s dst ((data.drop src).take len)) =
            .ok () (wrote s dst ((data.drop src).take len)) := rfl
        show (put dst _ >>= fun _ => put _ _) s = _
        rw [window_inside hin]
        simp only [bind, EStateM.bind, h1, h2]
      · have hov : window data src len = data.drop src ++ List.replicate (len - (data.length - src)) 0 :=
          window_over (by omega) (by omega)
        rw [Nat.min_eq_right (by omega), List.take_of_length_le (by simp)]
        have h1 := put_eq (s := s) (off := dst) (bs := data.drop src) h (fun _ => by simp; omega)
        have hw := wrote_wf (s := s) (off := dst) (bs := data.drop src) h (by simp; omega)
        have h2 := put_eq (s := wrote s dst (data.drop src)) (off := dst + (data.length - src))
          (bs := List.replicate (len - (data.length - src)) 0) hw (fun _ => by simp [wrote]; omega)
        have h3 := wrote_wrote (s := s) (off := dst) (a := data.drop src)
          (b := List.replicate (len - (data.length - src)) 0) h (by simp; omega)
        rw [List.length_drop] at h3
        simp only [bind, EStateM.bind, h1, h2, hov, h3]

/-! ## Outcomes -/

/-- A builtin that ends well does so with `P`, an error that ends the frame comes with `Q`; nothing panics. -/
def Sat (r : EStateM.Result Stop Cx α) (P : α → Cx → Prop) (Q : Cx → Prop) : Prop :=
  match r with
  | .ok a s => P a s
  | .error (.err _) s => Q s
  | .error .panic _ => False

theorem sat_pure {P : α → Cx → Prop} {Q : Cx → Prop} {a : α} {s : Cx} (h : P a s) : Sat ((pure a : M α) s) P Q := h

theorem sat_fail {P : α → Cx → Prop} {Q : Cx → Prop} {e : Err} {s : Cx} (h : Q s) :
    Sat ((failWith e : M α) s) P Q := h

theorem sat_bind {x : M α} {f : α → M β} {P : β → Cx → Prop} {Q : Cx → Prop} {s : Cx}
    (h : Sat (x s) (fun a s => Sat (f a s) P Q) Q) : Sat ((x >>= f) s) P Q := by
  show Sat (EStateM.bind x f s) P Q
  unfold EStateM.bind
  cases hx : x s with
  | ok a t => rw [hx] at h; exact h
  | error e t =>
    rw [hx] at h
    cases e with
    | err e => exact h
    | panic => exact h

theorem sat_get {f : Cx → M β} {P : β → Cx → Prop} {Q : Cx → Prop} {s : Cx}
    (h : Sat (f s s) P Q) : Sat (((get : M Cx) >>= f) s) P Q := h

theorem sat_usize {f : Nat → M β} {P : β → Cx → Prop} {Q : Cx → Prop} {s : Cx} {w : Word}
    (h : w.toNat < 2 ^ 64 → Sat (f w.toNat s) P Q) (h' : 2 ^ 64 ≤ w.toNat → Q s) : Sat ((toUsize w >>= f) s) P Q := by
  apply sat_bind
  unfold toUsize
  split
  · exact h ‹_›
  · exact h' (by omega)

theorem sat_charge {f : Unit → M β} {P : β → Cx → Prop} {Q : Cx → Prop} {s : Cx} {n : Nat}
    (h : n ≤ s.gas → Sat (f () { s with gas := s.gas - n }) P Q) (h' : s.gas < n → Q s) :
    Sat ((charge n >>= f) s) P Q := by
  apply sat_bind
  unfold charge
  split
  · exact h ‹_›
  · exact h' (by omega)

/-- `WF` after paying. -/
theorem WF.pay {s : Cx} (h : WF s) (n : Nat) : WF { s with gas := s.gas - n } :=
  ⟨h.size, h.paid, by have := h.room; dsimp only; omega, h.inp, h.shr, h.code, h.ret⟩

theorem sat_ensure {f : Unit → M β} {P : β → Cx → Prop} {Q : Cx → Prop} {s : Cx} {off len : Nat} (w : WF s)
    (h : need s (off + len) ≤ s.gas → Sat (f () (grown s (off + len))) P Q)
    (h' : s.gas < need s (off + len) → ∀ t, Kept s t → t.logs = s.logs → Q t) :
    Sat ((ensureMemory off len >>= f) s) P Q := by
  apply sat_bind
  rw [ensure_eq w]
  split
  · exact h ‹_›
  · refine h' (by omega) _ ⟨rfl, ?_, rfl⟩ rfl
    have := w.size; dsimp only; omega

end Verif.Frames
