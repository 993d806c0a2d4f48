import Verif.Lemmas.AbsInt
import Verif.Props.Arith
/-! # Helper lemmas: soundness of interpreting one instruction -/

namespace Verif
open Spec

theorem admitsStack_cons {v : AbsValue} {w : Word} {a : List AbsValue} {c : List Word}
    (h : Admits v w) (ht : AdmitsStack a c) : AdmitsStack (v :: a) (w :: c) := by
  intro i x y hx hy
  cases i with
  | zero => simp at hx hy; subst hx; subst hy; exact h
  | succ i => simp only [List.getElem?_cons_succ] at hx hy; exact ht i x y hx hy

theorem admitsStack_drop {a : List AbsValue} {c : List Word} (h : AdmitsStack a c) (n : Nat) :
    AdmitsStack (a.drop n) (c.drop n) := by
  intro i x y hx hy
  rw [List.getElem?_drop] at hx hy
  exact h _ x y hx hy

theorem admitsStack_tops {a : List AbsValue} {c res : List Word} (h : AdmitsStack a c) :
    AdmitsStack (List.replicate res.length .top ++ a) (res ++ c) := by
  induction res with
  | nil => simpa using h
  | cons x xs ih => exact admitsStack_cons (v := .top) trivial ih

theorem swapAt_getElem? {α : Type} (l : List α) (i j k : Nat) (hi : i < l.length) (hj : j < l.length) :
    (swapAt l i j)[k]? = if k = j then l[i]? else if k = i then l[j]? else l[k]? := by
  unfold swapAt
  rw [List.getElem?_eq_getElem hi, List.getElem?_eq_getElem hj]
  simp only
  rw [List.getElem?_set, List.getElem?_set]
  by_cases h1 : k = j
  · subst h1; simp [hj]
  · by_cases h2 : k = i
    · subst h2; simp [hi, h1, Ne.symm h1]
    · simp [h1, h2, Ne.symm h1, Ne.symm h2]

theorem admitsStack_swapAt {a : List AbsValue} {c : List Word} (h : AdmitsStack a c) (i j : Nat)
    (hi : i < a.length) (hj : j < a.length) (hic : i < c.length) (hjc : j < c.length) :
    AdmitsStack (swapAt a i j) (swapAt c i j) := by
  intro k v w hv hw
  rw [swapAt_getElem? _ _ _ _ hi hj] at hv
  rw [swapAt_getElem? _ _ _ _ hic hjc] at hw
  split at hv
  · rename_i e; rw [if_pos e] at hw; exact h _ _ _ hv hw
  · rename_i e; rw [if_neg e] at hw
    split at hv
    · rename_i e; rw [if_pos e] at hw; exact h _ _ _ hv hw
    · rename_i e; rw [if_neg e] at hw; exact h _ _ _ hv hw

theorem swapAt_exchange {α : Type} (p m r : List α) (a b : α) :
    swapAt (p ++ a :: m ++ b :: r) p.length (p.length + m.length + 1) = p ++ b :: m ++ a :: r := by
  apply List.ext_getElem?
  intro k
  rw [swapAt_getElem? _ _ _ _ (by simp) (by simp; omega)]
  simp only [List.append_assoc, List.cons_append]
  by_cases h1 : k = p.length + m.length + 1
  · subst h1
    rw [if_pos rfl]
    rw [List.getElem?_append_right (by omega), List.getElem?_append_right (by omega)]
    simp only [Nat.sub_self, List.getElem?_cons_zero]
    rw [show p.length + m.length + 1 - p.length = m.length + 1 by omega, List.getElem?_cons_succ,
      List.getElem?_append_right (by omega)]
    simp
  · rw [if_neg h1]
    by_cases h2 : k = p.length
    · subst h2
      rw [if_pos rfl, List.getElem?_append_right (by omega), List.getElem?_append_right (by omega),
        show p.length + m.length + 1 - p.length = m.length + 1 by omega, List.getElem?_cons_succ,
        List.getElem?_append_right (by omega)]
      simp
    · rw [if_neg h2]
      rcases Nat.lt_or_ge k p.length with h3 | h3
      · rw [List.getElem?_append_left h3, List.getElem?_append_left h3]
      · rw [List.getElem?_append_right h3, List.getElem?_append_right h3]
        obtain ⟨q, hq⟩ : ∃ q, k - p.length = q + 1 := ⟨k - p.length - 1, by omega⟩
        rw [hq, List.getElem?_cons_succ, List.getElem?_cons_succ]
        rcases Nat.lt_or_ge q m.length with h4 | h4
        · rw [List.getElem?_append_left h4, List.getElem?_append_left h4]
        · rw [List.getElem?_append_right h4, List.getElem?_append_right h4]
          obtain ⟨s, hs⟩ : ∃ s, q - m.length = s + 1 := ⟨q - m.length - 1, by omega⟩
          rw [hs, List.getElem?_cons_succ, List.getElem?_cons_succ]

theorem swapAt_swap {α : Type} (m r : List α) (a b : α) :
    swapAt (a :: m ++ b :: r) 0 (m.length + 1) = b :: m ++ a :: r := by
  have := swapAt_exchange ([] : List α) m r a b
  simpa using this

theorem decodeSingle_spec (x : UInt8) : (decodeSingle x).map UInt8.toNat = single x.toNat := by
  revert x; decide +kernel

theorem decodePair_spec (x : UInt8) :
    (decodePair x).map (fun p => (p.1.toNat, p.2.toNat)) = pair x.toNat := by
  revert x; decide +kernel

theorem pair_lt (x : UInt8) : (pair x.toNat).all (fun p => decide (p.1 < p.2)) = true := by
  revert x; decide +kernel

theorem single_pos (x : UInt8) : (single x.toNat).all (fun p => decide (0 < p)) = true := by
  revert x; decide +kernel

/-- The pure opcodes with their arities. -/
def pureOps : List (Nat × Nat) :=
  [(0x38, 0), (0x58, 0), (0x15, 1), (0x19, 1), (0x1e, 1), (0x01, 2), (0x02, 2), (0x03, 2), (0x04, 2),
   (0x05, 2), (0x06, 2), (0x07, 2), (0x0a, 2), (0x0b, 2), (0x10, 2), (0x11, 2), (0x12, 2), (0x13, 2),
   (0x14, 2), (0x16, 2), (0x17, 2), (0x18, 2), (0x1a, 2), (0x1b, 2), (0x1c, 2), (0x1d, 2), (0x08, 3),
   (0x09, 3)]

theorem evalOp_mem {cl pc o : Nat} {args : List Word} {w : Word}
    (h : evalOp cl pc o args = some w) : (o, args.length) ∈ pureOps := by
  apply Decidable.by_contra
  intro hm
  unfold evalOp at h
  split at h <;> simp [pureOps] at hm <;> simp [hm] at h

theorem pureOps_table : ∀ p ∈ pureOps, tableStackIo (UInt8.ofNat p.1) = (p.2, 1) ∧ p.1 < 0x5f ∧ p.1 ≠ 0x50 := by
  decide +kernel

theorem evalOp_table {cl pc : Nat} {o : UInt8} {args : List Word} {w : Word}
    (h : evalOp cl pc o.toNat args = some w) :
    tableStackIo o = (args.length, 1) ∧ o.toNat < 0x5f ∧ o.toNat ≠ 0x50 := by
  have := pureOps_table _ (evalOp_mem h)
  simpa using this

theorem interpOp_push {code : Code} {limit i : Nat} {st : AIState} {d : InstData} {a : List AbsValue}
    (h1 : 0x5f ≤ d.opcode.toNat) (h2 : d.opcode.toNat ≤ 0x7f) :
    interpOp code limit st i d a = (some (.const (code.imm i) :: a), st) := by
  unfold interpOp; dsimp only
  rw [if_pos ⟨h1, h2⟩]

theorem interpOp_dup {code : Code} {limit i : Nat} {st : AIState} {d : InstData} {a : List AbsValue}
    (h1 : 0x80 ≤ d.opcode.toNat) (h2 : d.opcode.toNat ≤ 0x8f) :
    interpOp code limit st i d a = (match a[d.opcode.toNat - 0x80]? with
      | none => (none, st)
      | some v => (some (v :: a), st)) := by
  unfold interpOp; dsimp only
  rw [if_neg (by omega), if_neg (by omega), if_pos ⟨h1, h2⟩]; try rfl

theorem interpOp_swap {code : Code} {limit i : Nat} {st : AIState} {d : InstData} {a : List AbsValue}
    (h1 : 0x90 ≤ d.opcode.toNat) (h2 : d.opcode.toNat ≤ 0x9f) :
    interpOp code limit st i d a = if a.length < d.opcode.toNat - 0x8f + 1 then (none, st)
      else (some (swapAt a 0 (d.opcode.toNat - 0x8f)), st) := by
  unfold interpOp; dsimp only
  rw [if_neg (by omega), if_neg (by omega), if_neg (by omega), if_pos ⟨h1, h2⟩]; try rfl

theorem interpOp_dupn {code : Code} {limit i : Nat} {st : AIState} {d : InstData} {a : List AbsValue}
    (h : d.opcode.toNat = 0xe6) :
    interpOp code limit st i d a = (match decodeSingle (UInt8.ofNat (code.imm i).toNat) with
    | none => (none, st)
    | some k => (some ((a[k.toNat - 1]?).getD .top :: a), st)) := by
  unfold interpOp; dsimp only
  rw [if_neg (by omega), if_neg (by omega), if_neg (by omega), if_neg (by omega), if_pos h]; try rfl

theorem interpOp_swapn {code : Code} {limit i : Nat} {st : AIState} {d : InstData} {a : List AbsValue}
    (h : d.opcode.toNat = 0xe7) :
    interpOp code limit st i d a = (match decodeSingle (UInt8.ofNat (code.imm i).toNat) with
    | none => (none, st)
    | some k =>
      if a.length < k.toNat + 1 then
        (some (match a with | [] => [] | _ :: s => .top :: s), st)
      else (some (swapAt a 0 k.toNat), st)) := by
  unfold interpOp; dsimp only
  rw [if_neg (by omega), if_neg (by omega), if_neg (by omega), if_neg (by omega), if_neg (by omega),
    if_pos h]; try rfl

theorem interpOp_exchange {code : Code} {limit i : Nat} {st : AIState} {d : InstData} {s : List AbsValue}
    (h : d.opcode.toNat = 0xe8) :
    interpOp code limit st i d s = (match decodePair (UInt8.ofNat (code.imm i).toNat) with
    | none => (none, st)
    | some (a, b) =>
      if s.length < b.toNat + 1 then
        (some (if a.toNat < s.length then s.set a.toNat .top else s), st)
      else (some (swapAt s a.toNat b.toNat), st)) := by
  unfold interpOp; dsimp only
  rw [if_neg (by omega), if_neg (by omega), if_neg (by omega), if_neg (by omega), if_neg (by omega),
    if_neg (by omega), if_pos h]; try rfl

theorem interpOp_pop {code : Code} {limit i : Nat} {st : AIState} {d : InstData} {s : List AbsValue}
    (h : d.opcode.toNat = 0x50) :
    interpOp code limit st i d s = (match s with
    | [] => (none, st)
    | _ :: s => (some s, st)) := by
  unfold interpOp; dsimp only
  rw [if_neg (by omega), if_pos h]; try rfl

theorem interpOp_generic {code : Code} {limit i : Nat} {st : AIState} {d : InstData}
    {s : List AbsValue} (h1 : ¬ (0x5f ≤ d.opcode.toNat ∧ d.opcode.toNat ≤ 0x9f))
    (h2 : d.opcode.toNat ∉ [0xe6, 0xe7, 0xe8]) (h3 : d.opcode.toNat ≠ 0x50) :
    interpOp code limit st i d s = if s.length < d.stackIo.1 then (none, st)
      else
        let r := tryFold code limit st d d.stackIo.1 d.stackIo.2 s
        (some (match r.1 with
          | some w => .const w :: s.drop d.stackIo.1
          | none => List.replicate d.stackIo.2 .top ++ s.drop d.stackIo.1), r.2) := by
  unfold interpOp; dsimp only
  simp only [List.mem_cons, List.not_mem_nil, or_false, not_or] at h2
  rw [if_neg (by omega), if_neg (by omega), if_neg (by omega), if_neg (by omega), if_neg (by omega),
    if_neg (by omega), if_neg (by omega)]
  rfl

theorem tryFold_some {code : Code} {limit inp out : Nat} {st : AIState} {d : InstData}
    {s : List AbsValue} {w : Word} (h : (tryFold code limit st d inp out s).1 = some w) :
    0 < out ∧ tryConstFold d (s.take inp).reverse code.codeLen = some w := by
  unfold tryFold at h
  split at h
  · rename_i hc
    refine ⟨hc.1, ?_⟩
    dsimp only at h
    split at h
    · simp at h
    · split at h
      · split at h
        · rename_i w' hw
          have := Option.some.inj h
          rw [hw, this]
        · simp at h
      · simp at h
  · simp at h

theorem all_const_eq {a : List AbsValue} (h : ∀ v ∈ a, v.asConst ≠ none) :
    ∃ ws : List Word, a = ws.map .const := by
  induction a with
  | nil => exact ⟨[], rfl⟩
  | cons x xs ih =>
    obtain ⟨ws, hws⟩ := ih (fun v hv => h v (List.mem_cons_of_mem _ hv))
    have hx := h x List.mem_cons_self
    cases x with
    | const v => exact ⟨v :: ws, by simp [hws]⟩
    | constSet s => simp [AbsValue.asConst] at hx
    | top => simp [AbsValue.asConst] at hx

theorem admits_consts {a : List AbsValue} {args r ws : List Word} {n : Nat}
    (h : AdmitsStack a (args ++ r)) (hn : args.length = n) (hl : n ≤ a.length)
    (ht : a.take n = ws.map .const) : ws = args := by
  have hlen : ws.length = n := by
    have := congrArg List.length ht
    simp at this; omega
  apply List.ext_getElem (by omega)
  intro k h1 h2
  have e : a[k]? = some (.const ws[k]) := by
    have : (a.take n)[k]? = some (.const ws[k]) := by
      rw [ht, List.getElem?_map, List.getElem?_eq_getElem h1]; rfl
    rw [List.getElem?_take] at this
    rw [if_pos (by omega)] at this
    exact this
  have e2 : (args ++ r)[k]? = some args[k] := by
    rw [List.getElem?_append_left h2, List.getElem?_eq_getElem h2]
  exact (h k _ _ e e2).symm

/-- Well-formed live instruction: its stack effect is the table's (for opcodes whose effect does not
depend on an immediate). -/
def StdIo (d : InstData) : Prop :=
  d.opcode.toNat ∉ [0xe6, 0xe7, 0xe8] → d.stackIo = tableStackIo d.opcode

/-- Folding on described operands agrees with the EVM. -/
theorem tryFold_sound {code : Code} {limit : Nat} {st : AIState} {d : InstData} {a : List AbsValue}
    {args r : List Word} {w : Word} (hio : d.stackIo = tableStackIo d.opcode)
    (hlen : ¬ a.length < d.stackIo.1) (ha : AdmitsStack a (args ++ r)) (hargs : args.length = d.stackIo.1)
    (h : (tryFold code limit st d d.stackIo.1 d.stackIo.2 a).1 = some w) :
    evalOp code.codeLen d.data d.opcode.toNat args = some w := by
  obtain ⟨-, h⟩ := tryFold_some h
  have hall : ∀ v ∈ a.take d.stackIo.1, v.asConst ≠ none := by
    intro v hv hn
    have := C08_unknown_operand d (a.take d.stackIo.1).reverse code.codeLen
      (by rw [List.length_reverse, List.length_take, ← hio]; omega)
      ⟨v, List.mem_reverse.2 hv, hn⟩
    rw [this] at h; simp at h
  obtain ⟨ws, hws⟩ := all_const_eq hall
  have e := admits_consts ha hargs (by omega) hws
  subst e
  rw [hws, ← List.map_reverse, C08_fold_exact d ws code.codeLen (by rw [hargs, hio])] at h
  exact h

theorem interpOp_sound {code : Code} {limit i : Nat} {st st' : AIState} {d : InstData}
    {a a' : List AbsValue} {c c' : List Word} (hio : StdIo d)
    (hstep : StackStep code.codeLen d.data d.opcode.toNat (code.imm i) d.stackIo.1 d.stackIo.2 c c')
    (ha : AdmitsStack a c) (h : interpOp code limit st i d a = (some a', st')) :
    AdmitsStack a' c' := by
  have hbyte : (UInt8.ofNat (code.imm i).toNat).toNat = (code.imm i).toNat % 256 := by simp
  cases hstep with
  | push _ h1 h2 =>
    rw [interpOp_push h1 h2] at h
    have e := Option.some.inj (Prod.mk.inj h).1
    subst e
    exact admitsStack_cons (by exact rfl) ha
  | dup _ w h1 h2 hw =>
    rw [interpOp_dup h1 h2] at h
    split at h
    · simp at h
    · rename_i v hv
      have e := Option.some.inj (Prod.mk.inj h).1
      subst e
      exact admitsStack_cons (ha _ _ _ hv hw) ha
  | swap x y m r h1 h2 hm =>
    rw [interpOp_swap h1 h2] at h
    split at h
    · simp at h
    · rename_i hl
      have e := Option.some.inj (Prod.mk.inj h).1
      subst e
      rw [← swapAt_swap]
      have : d.opcode.toNat - 0x8f = m.length + 1 := by omega
      rw [this] at *
      exact admitsStack_swapAt ha _ _ (by omega) (by omega) (by simp) (by simp)
  | dupn _ w n h1 hn hw =>
    rw [interpOp_dupn h1] at h
    have hs := decodeSingle_spec (UInt8.ofNat (code.imm i).toNat)
    rw [hbyte, hn] at hs
    split at h
    · simp at h
    · rename_i k hk
      rw [hk] at hs
      have hk' : k.toNat = n := Option.some.inj hs
      have e := Option.some.inj (Prod.mk.inj h).1
      subst e
      refine admitsStack_cons ?_ ha
      cases hv : a[k.toNat - 1]? with
      | none => trivial
      | some v => exact ha _ _ _ hv (by rw [hk']; exact hw)
  | swapn x y m r h1 hn =>
    rw [interpOp_swapn h1] at h
    have hs := decodeSingle_spec (UInt8.ofNat (code.imm i).toNat)
    rw [hbyte, hn] at hs
    split at h
    · simp at h
    · rename_i k hk
      rw [hk] at hs
      have hk' : k.toNat = m.length + 1 := Option.some.inj hs
      split at h
      · rename_i hl
        have e := Option.some.inj (Prod.mk.inj h).1
        subst e
        cases a with
        | nil => intro j v w hv; simp at hv
        | cons v0 s =>
          refine admitsStack_cons (v := .top) trivial ?_
          intro j v w hv hw
          have hj : j < s.length := by
            rcases Nat.lt_or_ge j s.length with hh | hh
            · exact hh
            · rw [List.getElem?_eq_none hh] at hv; simp at hv
          simp at hl
          refine ha (j + 1) v w (by simpa using hv) ?_
          rw [List.cons_append, List.getElem?_cons_succ]
          rw [List.getElem?_append_left (by omega)]
          change (m ++ x :: r)[j]? = some w at hw
          rw [List.getElem?_append_left (by omega)] at hw
          exact hw
      · rename_i hl
        have e := Option.some.inj (Prod.mk.inj h).1
        subst e
        rw [← swapAt_swap, hk'] 
        rw [hk'] at hl
        exact admitsStack_swapAt ha _ _ (by omega) (by omega) (by simp) (by simp)
  | exchange x y p m r h1 hn =>
    rw [interpOp_exchange h1] at h
    have hs := decodePair_spec (UInt8.ofNat (code.imm i).toNat)
    rw [hbyte, hn] at hs
    split at h
    · simp at h
    · rename_i k1 k2 hk
      rw [hk] at hs
      have hk' := Prod.mk.inj (Option.some.inj hs)
      simp only at hk'
      obtain ⟨e1, e2⟩ := hk'
      split at h
      · rename_i hl
        have e := Option.some.inj (Prod.mk.inj h).1
        subst e
        intro j v w hv hw
        have hpos : j ≠ p.length → j < a.length → Admits v w ∨ True := fun _ _ => Or.inr trivial
        by_cases hj : j = p.length
        · split at hv
          · rename_i hlt
            rw [List.getElem?_set, if_pos (by omega), if_pos (by omega)] at hv
            have := Option.some.inj hv
            subst this; trivial
          · rename_i hlt
            rw [List.getElem?_eq_none (by omega)] at hv; simp at hv
        · have hv' : a[j]? = some v := by
            split at hv
            · rw [List.getElem?_set, if_neg (by omega)] at hv; exact hv
            · exact hv
          have hja : j < a.length := by
            rcases Nat.lt_or_ge j a.length with hh | hh
            · exact hh
            · rw [List.getElem?_eq_none hh] at hv'; simp at hv'
          refine ha j v w hv' ?_
          rw [← swapAt_exchange, swapAt_getElem? _ _ _ _ (by simp) (by simp; omega),
            if_neg (by omega), if_neg hj] at hw
          exact hw
      · rename_i hl
        have e := Option.some.inj (Prod.mk.inj h).1
        subst e
        rw [← swapAt_exchange, e1, e2]
        rw [e2] at hl
        exact admitsStack_swapAt ha _ _ (by omega) (by omega) (by simp) (by simp; omega)
  | pure args r w hw =>
    obtain ⟨ht, hlt, h50⟩ := evalOp_table hw
    have hne : d.opcode.toNat ∉ [0xe6, 0xe7, 0xe8] := by
      simp only [List.mem_cons, List.not_mem_nil, or_false, not_or]; omega
    have hio' := hio hne
    rw [interpOp_generic (by omega) hne h50] at h
    split at h
    · simp at h
    · rename_i hl
      dsimp only at h
      have e := Option.some.inj (Prod.mk.inj h).1
      subst e
      have hin : d.stackIo.1 = args.length := by rw [hio', ht]
      have hout : d.stackIo.2 = 1 := by rw [hio', ht]
      have hd : (args ++ r).drop d.stackIo.1 = r := by rw [hin]; simp
      have had := admitsStack_drop ha d.stackIo.1
      rw [hd] at had
      split
      · rename_i w' hw'
        have := tryFold_sound hio' hl ha hin.symm hw'
        rw [hw] at this
        have := Option.some.inj this
        subst this
        exact admitsStack_cons (by exact rfl) had
      · rw [hout]
        exact admitsStack_cons (v := .top) trivial had
  | other args res r h1 h2 h3 h4 h5 =>
    have hd : (args ++ r).drop d.stackIo.1 = r := by rw [← h3]; simp
    have had := admitsStack_drop ha d.stackIo.1
    rw [hd] at had
    by_cases h50 : d.opcode.toNat = 0x50
    · rw [interpOp_pop h50] at h
      have hio' := hio h2
      have ht : tableStackIo d.opcode = (1, 0) := by
        have : d.opcode = 0x50 := UInt8.toNat_inj.1 h50
        rw [this]; decide
      rw [ht] at hio'
      split at h
      · simp at h
      · have e := Option.some.inj (Prod.mk.inj h).1
        subst e
        rw [hio'] at had h4
        have : res = [] := List.length_eq_zero_iff.1 h4
        subst this
        simpa using had
    · rw [interpOp_generic h1 h2 h50] at h
      split at h
      · simp at h
      · rename_i hl
        dsimp only at h
        have e := Option.some.inj (Prod.mk.inj h).1
        subst e
        split
        · rename_i w' hw'
          have := tryFold_sound (hio h2) hl ha h3 hw'
          rw [h5] at this
          simp at this
        · rw [← h4]
          exact admitsStack_tops had

end Verif
