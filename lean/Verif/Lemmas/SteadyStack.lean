import Verif.Lemmas.FlowLocal
/-!
# Interpreting the same instructions from a less and a more informed stack

The block-local pass starts every block with unknown operands. Constants it finds on the stack are found again,
or lost, from any other stack: they are never replaced by other constants.
-/

namespace Verif
open Spec

/-- `A` has nothing but the constants of `L` where `L` has constants, and `L` has no sets of constants. -/
def StackR (L A : List AbsValue) : Prop := ∀ (n : Nat) l, L[n]? = some l →
  l = .top ∨ ∃ w, l = .const w ∧ ∀ a, A[n]? = some a → a = .const w ∨ a = .top

theorem StackR.tops (k : Nat) (A : List AbsValue) : StackR (List.replicate k .top) A := by
  intro n l h
  rw [List.getElem?_replicate] at h
  split at h
  · exact .inl (Option.some.inj h).symm
  · cases h

/-- A value of the less informed stack against one of the other. -/
def ValR (l a : AbsValue) : Prop := l = .top ∨ ∃ w, l = .const w ∧ (a = .const w ∨ a = .top)

theorem StackR.get {L A : List AbsValue} (h : StackR L A) {n : Nat} {l a : AbsValue} (hl : L[n]? = some l)
    (ha : A[n]? = some a) : ValR l a := by
  rcases h n l hl with h1 | ⟨w, h1, h2⟩
  · exact .inl h1
  · exact .inr ⟨w, h1, h2 a ha⟩

theorem StackR.cons {L A : List AbsValue} {l a : AbsValue} (h : StackR L A) (hv : ValR l a) :
    StackR (l :: L) (a :: A) := by
  intro n l' hl
  cases n with
  | zero =>
    simp only [List.getElem?_cons_zero, Option.some.injEq] at hl ⊢
    subst hl
    rcases hv with h1 | ⟨w, h1, h2⟩
    · exact .inl h1
    · exact .inr ⟨w, h1, fun a' e => e ▸ h2⟩
  | succ n =>
    simp only [List.getElem?_cons_succ] at hl ⊢
    exact h n l' hl

theorem StackR.drop {L A : List AbsValue} (h : StackR L A) (k : Nat) : StackR (L.drop k) (A.drop k) := by
  intro n l hl
  rw [List.getElem?_drop] at hl
  simp only [List.getElem?_drop]
  exact h _ l hl

theorem StackR.topped {L A : List AbsValue} (h : StackR L A) (k : Nat) :
    StackR (List.replicate k .top ++ L) (List.replicate k .top ++ A) := by
  induction k with
  | zero => exact h
  | succ k ih => exact ih.cons (.inl rfl)

/-- A position of the less informed stack may be compared when it is described where the other has a value. -/
theorem StackR.pointwise {L A L' A' : List AbsValue} (h : StackR L A)
    (hp : ∀ (n : Nat) l, L'[n]? = some l → l = .top ∨ ∃ m : Nat, L[m]? = some l ∧ ∀ a, A'[n]? = some a → a = .top ∨ A[m]? = some a) :
    StackR L' A' := by
  intro n l hl
  rcases hp n l hl with h1 | ⟨m, h1, h2⟩
  · exact .inl h1
  · rcases h m l h1 with h3 | ⟨w, h3, h4⟩
    · exact .inl h3
    · refine .inr ⟨w, h3, fun a ha => ?_⟩
      rcases h2 a ha with h5 | h5
      · exact .inr h5
      · exact h4 a h5

theorem swapAt_get_cases {α : Type} (l : List α) {i j : Nat} (hi : i < l.length) (hj : j < l.length) (k : Nat) :
    (k = j ∧ (swapAt l i j)[k]? = l[i]?) ∨ (k ≠ j ∧ k = i ∧ (swapAt l i j)[k]? = l[j]?) ∨
      (k ≠ j ∧ k ≠ i ∧ (swapAt l i j)[k]? = l[k]?) := by
  rw [swapAt_getElem? l i j k hi hj]
  by_cases h1 : k = j
  · exact .inl ⟨h1, by rw [if_pos h1]⟩
  · by_cases h2 : k = i
    · exact .inr (.inl ⟨h1, h2, by rw [if_neg h1, if_pos h2]⟩)
    · exact .inr (.inr ⟨h1, h2, by rw [if_neg h1, if_neg h2]⟩)

theorem StackR.swap {L A : List AbsValue} (h : StackR L A) {i j : Nat} (hi : i < L.length) (hj : j < L.length)
    (hia : i < A.length) (hja : j < A.length) : StackR (swapAt L i j) (swapAt A i j) := by
  refine h.pointwise fun n l hl => .inr ?_
  rcases swapAt_get_cases L hi hj n with ⟨e, g⟩ | ⟨e, e', g⟩ | ⟨e, e', g⟩ <;>
    rcases swapAt_get_cases A hia hja n with ⟨f, k⟩ | ⟨f, f', k⟩ | ⟨f, f', k⟩ <;>
    first | omega | exact ⟨_, g ▸ hl, fun a ha => .inr (k ▸ ha)⟩

/-- Both stacks after folding or not. -/
theorem StackR.folded {code : Code} {limit : Nat} {st st' : AIState} {d d' : InstData} {L A : List AbsValue}
    (h : StackR L A) (hio : d.stackIo = tableStackIo d.opcode) (ho : d'.opcode = d.opcode) (hs : d'.stackIo = d.stackIo)
    (hd : d'.data = d.data) (hL : ¬ L.length < d.stackIo.1) (hA : ¬ A.length < d.stackIo.1) :
    StackR
      (match (tryFold code limit st d d.stackIo.1 d.stackIo.2 L).1 with
        | some w => .const w :: L.drop d.stackIo.1
        | none => List.replicate d.stackIo.2 .top ++ L.drop d.stackIo.1)
      (match (tryFold code limit st' d' d'.stackIo.1 d'.stackIo.2 A).1 with
        | some w => .const w :: A.drop d'.stackIo.1
        | none => List.replicate d'.stackIo.2 .top ++ A.drop d'.stackIo.1) := by
  have hcf : ∀ s, tryConstFold d' s code.codeLen = tryConstFold d s code.codeLen := fun s => by
    unfold tryConstFold; rw [ho, hd]
  -- what a successful fold means
  have hfold : ∀ (s : List AbsValue) w, ¬ s.length < d.stackIo.1 →
      tryConstFold d (s.take d.stackIo.1).reverse code.codeLen = some w →
      ∃ ws : List Word, s.take d.stackIo.1 = ws.map .const ∧
        evalOp code.codeLen d.data d.opcode.toNat ws = some w ∧ d.stackIo.2 = 1 := fun s w hl hw => by
    have hall : ∀ v ∈ s.take d.stackIo.1, v.asConst ≠ none := by
      intro v hv hn
      have := C08_unknown_operand d (s.take d.stackIo.1).reverse code.codeLen
        (by rw [List.length_reverse, List.length_take, ← hio]; omega)
        ⟨v, List.mem_reverse.2 hv, hn⟩
      rw [this] at hw; simp at hw
    obtain ⟨ws, hws⟩ := all_const_eq hall
    have hlen : ws.length = d.stackIo.1 := by
      have := congrArg List.length hws
      simp at this; omega
    rw [hws, ← List.map_reverse, C08_fold_exact d ws code.codeLen (by rw [hlen, hio])] at hw
    exact ⟨ws, hws, hw, by rw [hio]; exact congrArg Prod.snd (evalOp_table hw).1⟩
  rw [hs]
  cases hl : (tryFold code limit st d d.stackIo.1 d.stackIo.2 L).1 with
  | none =>
    cases ha : (tryFold code limit st' d' d.stackIo.1 d.stackIo.2 A).1 with
    | none => exact (h.drop _).topped _
    | some w =>
      obtain ⟨_, hw⟩ := tryFold_some ha
      rw [hcf] at hw
      obtain ⟨_, _, _, hout⟩ := hfold A w hA hw
      dsimp only
      rw [hout]
      exact (h.drop _).cons (.inl rfl)
  | some w =>
    obtain ⟨_, hw⟩ := tryFold_some hl
    obtain ⟨ws, hws, he, hout⟩ := hfold L w hL hw
    cases ha : (tryFold code limit st' d' d.stackIo.1 d.stackIo.2 A).1 with
    | none =>
      dsimp only
      rw [hout]
      exact (h.drop _).cons (.inr ⟨w, rfl, .inr rfl⟩)
    | some w' =>
      obtain ⟨_, hw'⟩ := tryFold_some ha
      rw [hcf] at hw'
      obtain ⟨ws', hws', he', _⟩ := hfold A w' hA hw'
      have hsame : ws' = ws := by
        have hlen : ws.length = d.stackIo.1 := by
          have := congrArg List.length hws
          simp at this; omega
        have hlen' : ws'.length = d.stackIo.1 := by
          have := congrArg List.length hws'
          simp at this; omega
        apply List.ext_getElem (by omega)
        intro k h1 h2
        have e1 : L[k]? = some (.const ws[k]) := by
          have : (L.take d.stackIo.1)[k]? = some (.const ws[k]) := by
            rw [hws, List.getElem?_map, List.getElem?_eq_getElem h2]; rfl
          rwa [List.getElem?_take, if_pos (by omega)] at this
        have e2 : A[k]? = some (.const ws'[k]) := by
          have : (A.take d.stackIo.1)[k]? = some (.const ws'[k]) := by
            rw [hws', List.getElem?_map, List.getElem?_eq_getElem h1]; rfl
          rwa [List.getElem?_take, if_pos (by omega)] at this
        rcases h.get e1 e2 with h3 | ⟨x, h3, h4 | h4⟩
        · cases h3
        · exact AbsValue.const.inj (h4.trans h3.symm)
        · cases h4
      subst hsame
      rw [he] at he'
      cases he'
      exact (h.drop _).cons (.inr ⟨w, rfl, .inl rfl⟩)

/-- One instruction keeps the relation. -/
theorem StackR.op {code : Code} {limit i : Nat} {st st' : AIState} {d d' : InstData} {L A L' A' : List AbsValue}
    (h : StackR L A) (hio : StdIo d) (ho : d'.opcode = d.opcode) (hs : d'.stackIo = d.stackIo) (hd : d'.data = d.data)
    (hl : (interpOp code limit st i d L).1 = some L') (ha : (interpOp code limit st' i d' A).1 = some A') :
    StackR L' A' := by
  by_cases h1 : 0x5f ≤ d.opcode.toNat ∧ d.opcode.toNat ≤ 0x7f
  · rw [interpOp_push h1.1 h1.2] at hl
    rw [interpOp_push (by rw [ho]; exact h1.1) (by rw [ho]; exact h1.2)] at ha
    cases hl; cases ha
    exact h.cons (.inr ⟨_, rfl, .inl rfl⟩)
  by_cases h2 : d.opcode.toNat = 0x50
  · rw [interpOp_pop h2] at hl
    rw [interpOp_pop (by rw [ho]; exact h2)] at ha
    cases L with
    | nil => cases hl
    | cons l L =>
      cases A with
      | nil => cases ha
      | cons a A =>
        cases hl; cases ha
        exact h.drop 1
  by_cases h3 : 0x80 ≤ d.opcode.toNat ∧ d.opcode.toNat ≤ 0x8f
  · rw [interpOp_dup h3.1 h3.2] at hl
    rw [interpOp_dup (by rw [ho]; exact h3.1) (by rw [ho]; exact h3.2), ho] at ha
    cases hlk : L[d.opcode.toNat - 0x80]? with
    | none => rw [hlk] at hl; cases hl
    | some l =>
      cases hak : A[d.opcode.toNat - 0x80]? with
      | none => rw [hak] at ha; cases ha
      | some a =>
        rw [hlk] at hl; rw [hak] at ha
        cases hl; cases ha
        exact h.cons (h.get hlk hak)
  by_cases h4 : 0x90 ≤ d.opcode.toNat ∧ d.opcode.toNat ≤ 0x9f
  · rw [interpOp_swap h4.1 h4.2] at hl
    rw [interpOp_swap (by rw [ho]; exact h4.1) (by rw [ho]; exact h4.2), ho] at ha
    by_cases hll : L.length < d.opcode.toNat - 0x8f + 1
    · rw [if_pos hll] at hl; cases hl
    by_cases hal : A.length < d.opcode.toNat - 0x8f + 1
    · rw [if_pos hal] at ha; cases ha
    rw [if_neg hll] at hl; rw [if_neg hal] at ha
    cases hl; cases ha
    exact h.swap (by omega) (by omega) (by omega) (by omega)
  by_cases h5 : d.opcode.toNat = 0xe6
  · rw [interpOp_dupn h5] at hl
    rw [interpOp_dupn (by rw [ho]; exact h5)] at ha
    cases hk : decodeSingle (UInt8.ofNat (code.imm i).toNat) with
    | none => rw [hk] at hl; cases hl
    | some k =>
      rw [hk] at hl ha
      cases hl; cases ha
      refine h.cons ?_
      cases hlk : L[k.toNat - 1]? with
      | none => exact .inl rfl
      | some l =>
        cases hak : A[k.toNat - 1]? with
        | none =>
          rcases h _ l hlk with e | ⟨w, e, _⟩
          · exact .inl e
          · exact .inr ⟨w, e, .inr rfl⟩
        | some a => exact h.get hlk hak
  by_cases h6 : d.opcode.toNat = 0xe7
  · rw [interpOp_swapn h6] at hl
    rw [interpOp_swapn (by rw [ho]; exact h6)] at ha
    cases hk : decodeSingle (UInt8.ofNat (code.imm i).toNat) with
    | none => rw [hk] at hl; cases hl
    | some k =>
      rw [hk] at hl ha
      dsimp only at hl ha
      have topd : ∀ (s : List AbsValue) (n : Nat) v, (match s with | [] => [] | _ :: s => .top :: s : List AbsValue)[n]? = some v →
          (n = 0 ∧ v = .top) ∨ (n ≠ 0 ∧ s[n]? = some v) := fun s n v hv => by
        cases s with
        | nil => simp at hv
        | cons x s =>
          cases n with
          | zero => exact .inl ⟨rfl, by simpa using hv.symm⟩
          | succ n => exact .inr ⟨by omega, by simpa using hv⟩
      have hlt : ∀ (s : List AbsValue) (n : Nat) v, s[n]? = some v → n < s.length := fun s n v hv =>
        (List.getElem?_eq_some_iff.1 hv).1
      refine h.pointwise fun n l hln => ?_
      by_cases hll : L.length < k.toNat + 1
      · rw [if_pos hll] at hl
        cases hl
        rcases topd L n l hln with ⟨_, e⟩ | ⟨e, hln⟩
        · exact .inl e
        · refine .inr ⟨n, hln, fun a han => ?_⟩
          have := hlt _ _ _ hln
          by_cases hal : A.length < k.toNat + 1
          · rw [if_pos hal] at ha
            cases ha
            rcases topd A n a han with ⟨e', _⟩ | ⟨_, g⟩
            · exact absurd e' e
            · exact .inr g
          · rw [if_neg hal] at ha
            cases ha
            rcases swapAt_get_cases A (i := 0) (j := k.toNat) (by omega) (by omega) n with ⟨f, g⟩ | ⟨f, f', g⟩ | ⟨f, f', g⟩
            · omega
            · omega
            · exact .inr (g ▸ han)
      · rw [if_neg hll] at hl
        cases hl
        by_cases hal : A.length < k.toNat + 1
        · rw [if_pos hal] at ha
          cases ha
          rcases swapAt_get_cases L (i := 0) (j := k.toNat) (by omega) (by omega) n with ⟨f, g⟩ | ⟨f, f', g⟩ | ⟨f, f', g⟩
          · refine .inr ⟨_, g ▸ hln, fun a han => ?_⟩
            rcases topd A n a han with ⟨_, e⟩ | ⟨_, e⟩
            · exact .inl e
            · have := hlt _ _ _ e; omega
          · refine .inr ⟨_, g ▸ hln, fun a han => ?_⟩
            rcases topd A n a han with ⟨_, e⟩ | ⟨e, _⟩
            · exact .inl e
            · omega
          · refine .inr ⟨_, g ▸ hln, fun a han => ?_⟩
            rcases topd A n a han with ⟨_, e⟩ | ⟨_, e⟩
            · exact .inl e
            · exact .inr e
        · rw [if_neg hal] at ha
          cases ha
          rcases swapAt_get_cases L (i := 0) (j := k.toNat) (by omega) (by omega) n with ⟨e, g⟩ | ⟨e, e', g⟩ | ⟨e, e', g⟩ <;>
            rcases swapAt_get_cases A (i := 0) (j := k.toNat) (by omega) (by omega) n with ⟨f, q⟩ | ⟨f, f', q⟩ | ⟨f, f', q⟩ <;>
            first | omega | exact .inr ⟨_, g ▸ hln, fun a ha => .inr (q ▸ ha)⟩
  by_cases h7 : d.opcode.toNat = 0xe8
  · rw [interpOp_exchange h7] at hl
    rw [interpOp_exchange (by rw [ho]; exact h7)] at ha
    cases hk : decodePair (UInt8.ofNat (code.imm i).toNat) with
    | none => rw [hk] at hl; cases hl
    | some xy =>
      obtain ⟨x, y⟩ := xy
      rw [hk] at hl ha
      dsimp only at hl ha
      have hxy : x.toNat < y.toNat := by
        have h1 := decodePair_spec (UInt8.ofNat (code.imm i).toNat)
        have h2 := pair_lt (UInt8.ofNat (code.imm i).toNat)
        rw [← h1, hk] at h2
        simpa using h2
      have setd : ∀ (s : List AbsValue) (n : Nat) v, (if x.toNat < s.length then s.set x.toNat .top else s)[n]? = some v →
          (n = x.toNat ∧ v = .top) ∨ (n ≠ x.toNat ∧ s[n]? = some v) := fun s n v hv => by
        by_cases hx : x.toNat < s.length
        · rw [if_pos hx, List.getElem?_set] at hv
          by_cases hn : x.toNat = n
          · subst hn
            rw [if_pos rfl, if_pos hx] at hv
            exact .inl ⟨rfl, (Option.some.inj hv).symm⟩
          · rw [if_neg hn] at hv
            exact .inr ⟨fun e => hn e.symm, hv⟩
        · rw [if_neg hx] at hv
          have := (List.getElem?_eq_some_iff.1 hv).1
          exact .inr ⟨by omega, hv⟩
      have hlt : ∀ (s : List AbsValue) (n : Nat) v, s[n]? = some v → n < s.length := fun s n v hv =>
        (List.getElem?_eq_some_iff.1 hv).1
      refine h.pointwise fun n l hln => ?_
      by_cases hll : L.length < y.toNat + 1
      · rw [if_pos hll] at hl
        cases hl
        rcases setd L n l hln with ⟨_, e⟩ | ⟨e, hln⟩
        · exact .inl e
        · refine .inr ⟨n, hln, fun a han => ?_⟩
          have := hlt _ _ _ hln
          by_cases hal : A.length < y.toNat + 1
          · rw [if_pos hal] at ha
            cases ha
            rcases setd A n a han with ⟨e', _⟩ | ⟨_, g⟩
            · exact absurd e' e
            · exact .inr g
          · rw [if_neg hal] at ha
            cases ha
            rcases swapAt_get_cases A (i := x.toNat) (j := y.toNat) (by omega) (by omega) n with
              ⟨f, g⟩ | ⟨f, f', g⟩ | ⟨f, f', g⟩
            · omega
            · omega
            · exact .inr (g ▸ han)
      · rw [if_neg hll] at hl
        cases hl
        by_cases hal : A.length < y.toNat + 1
        · rw [if_pos hal] at ha
          cases ha
          rcases swapAt_get_cases L (i := x.toNat) (j := y.toNat) (by omega) (by omega) n with
            ⟨f, g⟩ | ⟨f, f', g⟩ | ⟨f, f', g⟩
          · refine .inr ⟨_, g ▸ hln, fun a han => ?_⟩
            rcases setd A n a han with ⟨_, e⟩ | ⟨_, e⟩
            · exact .inl e
            · have := hlt _ _ _ e; omega
          · refine .inr ⟨_, g ▸ hln, fun a han => ?_⟩
            rcases setd A n a han with ⟨_, e⟩ | ⟨e, _⟩
            · exact .inl e
            · omega
          · refine .inr ⟨_, g ▸ hln, fun a han => ?_⟩
            rcases setd A n a han with ⟨_, e⟩ | ⟨_, e⟩
            · exact .inl e
            · exact .inr e
        · rw [if_neg hal] at ha
          cases ha
          rcases swapAt_get_cases L (i := x.toNat) (j := y.toNat) (by omega) (by omega) n with
              ⟨e, g⟩ | ⟨e, e', g⟩ | ⟨e, e', g⟩ <;>
            rcases swapAt_get_cases A (i := x.toNat) (j := y.toNat) (by omega) (by omega) n with
              ⟨f, q⟩ | ⟨f, f', q⟩ | ⟨f, f', q⟩ <;>
            first | omega | exact .inr ⟨_, g ▸ hln, fun a ha => .inr (q ▸ ha)⟩
  · have hm : d.opcode.toNat ∉ [0xe6, 0xe7, 0xe8] := by simp [h5, h6, h7]
    rw [interpOp_generic (by omega) hm h2] at hl
    rw [interpOp_generic (by rw [ho]; omega) (by rw [ho]; exact hm) (by rw [ho]; exact h2)] at ha
    by_cases hll : L.length < d.stackIo.1
    · rw [if_pos hll] at hl; cases hl
    by_cases hal : A.length < d'.stackIo.1
    · rw [if_pos hal] at ha; cases ha
    rw [if_neg hll] at hl; rw [if_neg hal] at ha
    cases hl; cases ha
    exact h.folded (hio hm) ho hs hd hll (by rw [← hs]; exact hal)

end Verif
