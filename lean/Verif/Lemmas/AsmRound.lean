import Verif.Lemmas.AsmDefine
import Verif.Lemmas.AsmDecode
/-!
# Disassembling and assembling again
-/

namespace Verif.Asm
open Spec

/-! ## Hexadecimal digits -/

theorem hexDigit_spec : ∀ n : Fin 16, isHex (hexDigit n) = true ∧ digitVal (hexDigit n) = n ∧
    isUniWs (hexDigit n) = false ∧ hexDigit n ≠ '#' := by decide

theorem hexDigit_ok {n : Nat} (h : n < 16) : isHex (hexDigit n) = true ∧ digitVal (hexDigit n) = n ∧
    isUniWs (hexDigit n) = false ∧ hexDigit n ≠ '#' := hexDigit_spec ⟨n, h⟩

theorem hexBytes_mem {bs : List UInt8} {c : Char} (h : c ∈ hexBytes bs) :
    isHex c = true ∧ isUniWs c = false ∧ c ≠ '#' := by
  simp only [hexBytes, List.mem_flatMap, List.mem_cons, List.not_mem_nil, or_false] at h
  obtain ⟨b, _, h⟩ := h
  have hb := b.toNat_lt
  rcases h with rfl | rfl
  · obtain ⟨h1, _, h2, h3⟩ := hexDigit_ok (n := b.toNat / 16) (by omega)
    exact ⟨h1, h2, h3⟩
  · obtain ⟨h1, _, h2, h3⟩ := hexDigit_ok (n := b.toNat % 16) (by omega)
    exact ⟨h1, h2, h3⟩

theorem foldl_hexBytes (bs : List UInt8) (a : Nat) :
    (hexBytes bs).foldl (fun acc c => acc * 16 + digitVal c) a =
      bs.foldl (fun acc b => acc * 256 + b.toNat) a := by
  induction bs generalizing a with
  | nil => rfl
  | cons b bs ih =>
    have hb := b.toNat_lt
    have e1 := (hexDigit_ok (n := b.toNat / 16) (by omega)).2.1
    have e2 := (hexDigit_ok (n := b.toNat % 16) (by omega)).2.1
    simp only [hexBytes, List.flatMap_cons, List.cons_append, List.nil_append, List.foldl_cons] at *
    rw [e1, e2]
    rw [show (a * 16 + b.toNat / 16) * 16 + b.toNat % 16 = a * 256 + b.toNat by omega]
    exact ih _

theorem beBytes_beValue (bs : List UInt8) : beBytes bs.length (beValue bs) = bs := by
  have key : ∀ (bs : List UInt8) (a : Nat),
      beBytes bs.length (bs.foldl (fun acc b => acc * 256 + b.toNat) a) = bs := by
    intro bs
    induction bs with
    | nil => intro a; rfl
    | cons b bs ih =>
      intro a
      rw [List.length_cons, beBytes, List.foldl_cons, ih]
      congr 1
      have hlt := foldl_lt bs (a * 256 + b.toNat)
      have hge : (a * 256 + b.toNat) * 256 ^ bs.length ≤
          bs.foldl (fun acc b => acc * 256 + b.toNat) (a * 256 + b.toNat) := by
        clear ih hlt
        generalize a * 256 + b.toNat = v
        induction bs generalizing v with
        | nil => simp
        | cons c bs ih =>
          rw [List.foldl_cons, List.length_cons, Nat.pow_succ]
          refine Nat.le_trans ?_ (ih (v * 256 + c.toNat))
          rw [Nat.mul_comm (256 ^ _) 256, ← Nat.mul_assoc]
          exact Nat.mul_le_mul_right _ (by omega)
      have hpos : 0 < 256 ^ bs.length := Nat.pow_pos (by omega)
      have hdiv : bs.foldl (fun acc b => acc * 256 + b.toNat) (a * 256 + b.toNat) / 256 ^ bs.length =
          a * 256 + b.toNat := by
        rw [Nat.div_eq_iff hpos]
        have : (a * 256 + b.toNat + 1) * 256 ^ bs.length = (a * 256 + b.toNat) * 256 ^ bs.length + 256 ^ bs.length := by
          rw [Nat.add_mul, Nat.one_mul]
        omega
      rw [hdiv]
      apply UInt8.toNat_inj.1
      have := b.toNat_lt
      rw [UInt8.toNat_ofNat']
      omega
  exact key bs 0

/-! ## Instructions -/

/-- An instruction that the assembler writes as the disassembler reads it: named, with all its
immediate bytes, and not one of EIP-8024. -/
structure Plain (names : String → Option UInt8) (nameOf : UInt8 → Option (List Char))
    (x : UInt8 × Option (List UInt8)) (w : List Char) : Prop where
  name : nameOf x.1 = some w
  word : Name w
  back : names (String.ofList w) = some x.1
  notPush : String.ofList w ≠ "PUSH"
  notDup : String.ofList w ≠ "DUP"
  notSwap : String.ofList w ≠ "SWAP"
  notMacro : String.ofList w ≠ "RET_WORD"
  eip : isEip8024 x.1 = false
  imm : match x.2 with
    | none => minImmLen x.1 = 0
    | some bs => bs.length = minImmLen x.1 ∧ bs ≠ [] ∧ bs.length ≤ 32

/-- The value of an immediate. -/
def immWord (bs : List UInt8) : Word := BitVec.ofNat 256 (beValue bs)

/-- The tokens of an instruction. -/
def opToks (w : List Char) (imm : Option (List UInt8)) : List Token :=
  ⟨String.ofList w, .ident⟩ ::
    match imm with
    | none => []
    | some bs => [⟨String.ofList ('0' :: 'x' :: hexBytes bs), .number (immWord bs)⟩]

/-- The item of an instruction. -/
def opItem (o : UInt8) (imm : Option (List UInt8)) : Item :=
  match imm with
  | none => .inst ⟨o, none, .none⟩
  | some bs => .inst ⟨o, some (.number (immWord bs)), .fixed bs.length⟩

theorem lexed_show {names : String → Option UInt8} {nameOf : UInt8 → Option (List Char)}
    {x : UInt8 × Option (List UInt8)} {w : List Char} (h : Plain names nameOf x w) {s : List Char}
    {ts : List Token} (hs : s = [] ∨ s.head? = some ' ') (hts : Lexed s ts) :
    Lexed (showOpcode nameOf x.1 x.2 ++ s) (opToks w x.2 ++ ts) := by
  have hnext : ∀ p : Char → Bool, p ' ' = false → NextNot s p := by
    intro p hp c hc
    rcases hs with rfl | hs
    · cases hc
    · rw [hs] at hc; cases hc; exact hp
  have himm := h.imm
  rw [showOpcode.eq_def, h.name]
  cases hx : x.2 with
  | none =>
    rw [List.append_nil]
    exact .lexeme (.ident h.word (hnext _ (by decide))) hts
  | some bs =>
    rw [hx] at himm
    simp only [opToks, List.append_assoc, List.cons_append, List.nil_append]
    refine .lexeme (.ident h.word ?_) (.blank (by decide) ?_)
    · intro c hc; cases hc; decide
    · have hlit : Literal ('0' :: 'x' :: hexBytes bs) s (beValue bs) := by
        refine .hex (.inl rfl) ⟨fun c hc => (hexBytes_mem hc).1, ?_⟩ (hnext _ (by decide))
        rw [foldl_hexBytes]; rfl
      have hlt : beValue bs < 2 ^ 256 := by
        refine Nat.lt_of_lt_of_le (beValue_lt bs) ?_
        have : (256 : Nat) ^ bs.length ≤ 256 ^ 32 := Nat.pow_le_pow_right (by omega) himm.2.2
        exact this
      exact Lexed.lexeme (Lexeme.number hlit hlt) hts

theorem show_chars {names : String → Option UInt8} {nameOf : UInt8 → Option (List Char)}
    {x : UInt8 × Option (List UInt8)} {w : List Char} (h : Plain names nameOf x w) :
    ∀ c ∈ showOpcode nameOf x.1 x.2, c ≠ '#' ∧ (isUniWs c = true → isWs c = true) := by
  intro c hc
  rw [showOpcode.eq_def, h.name] at hc
  rcases List.mem_append.1 hc with hc | hc
  · have hw := h.word.1.2 c hc
    constructor
    · rintro rfl; cases hw
    · intro hu
      exfalso
      simp only [isWord, Bool.or_eq_true, beq_iff_eq, isAlpha_iff, isDigit_iff] at hw
      simp only [isUniWs, Bool.or_eq_true, Bool.and_eq_true, decide_eq_true_eq, beq_iff_eq] at hu
      rcases hw with (hw | hw) | rfl
      · omega
      · omega
      · revert hu; decide
  · cases hx : x.2 with
    | none => rw [hx] at hc; cases hc
    | some bs =>
      rw [hx] at hc
      rcases List.mem_cons.1 hc with rfl | hc
      · exact ⟨by decide, by decide⟩
      rcases List.mem_cons.1 hc with rfl | hc
      · exact ⟨by decide, by decide⟩
      rcases List.mem_cons.1 hc with rfl | hc
      · exact ⟨by decide, by decide⟩
      obtain ⟨_, h2, h3⟩ := hexBytes_mem hc
      exact ⟨h3, fun h => by rw [h2] at h; cases h⟩

/-- Names for a list of instructions. -/
inductive AllPlain (names : String → Option UInt8) (nameOf : UInt8 → Option (List Char)) :
    List (UInt8 × Option (List UInt8)) → List (List Char) → Prop
  | nil : AllPlain names nameOf [] []
  | cons {x : UInt8 × Option (List UInt8)} {w : List Char}
      {xs : List (UInt8 × Option (List UInt8))} {ws : List (List Char)} : Plain names nameOf x w →
      AllPlain names nameOf xs ws → AllPlain names nameOf (x :: xs) (w :: ws)

/-- The tokens of the instructions. -/
def allToks : List (UInt8 × Option (List UInt8)) → List (List Char) → List Token
  | x :: xs, w :: ws => opToks w x.2 ++ allToks xs ws
  | _, _ => []

theorem intercalate_cons_cons (s a b : List Char) (l : List (List Char)) :
    s.intercalate (a :: b :: l) = a ++ (s ++ s.intercalate (b :: l)) := by
  simp [List.intercalate, List.intersperse]

theorem lexed_format {names : String → Option UInt8} {nameOf : UInt8 → Option (List Char)}
    {xs : List (UInt8 × Option (List UInt8))} {ws : List (List Char)}
    (h : AllPlain names nameOf xs ws) :
    Lexed ([' '].intercalate (xs.map fun x => showOpcode nameOf x.1 x.2)) (allToks xs ws) := by
  induction h with
  | nil => exact .nil
  | cons hx hxs ih =>
    rename_i x w xs ws
    cases xs with
    | nil =>
      cases hxs
      have := lexed_show hx (s := []) (ts := []) (.inl rfl) .nil
      simpa [allToks, List.intercalate, List.intersperse] using this
    | cons y ys =>
      rw [List.map_cons] at ih ⊢
      rw [List.map_cons, intercalate_cons_cons]
      exact lexed_show hx (.inr rfl) (.blank (by decide) ih)

theorem format_chars {names : String → Option UInt8} {nameOf : UInt8 → Option (List Char)}
    {xs : List (UInt8 × Option (List UInt8))} {ws : List (List Char)}
    (h : AllPlain names nameOf xs ws) :
    ∀ c ∈ [' '].intercalate (xs.map fun x => showOpcode nameOf x.1 x.2),
      c ≠ '#' ∧ (isUniWs c = true → isWs c = true) := by
  induction h with
  | nil => intro c hc; cases hc
  | cons hx hxs ih =>
    rename_i x w xs ws
    cases xs with
    | nil =>
      intro c hc
      refine show_chars hx c ?_
      simpa [List.intercalate, List.intersperse] using hc
    | cons y ys =>
      intro c hc
      rw [List.map_cons] at ih
      rw [List.map_cons, List.map_cons, intercalate_cons_cons] at hc
      rcases List.mem_append.1 hc with hc | hc
      · exact show_chars hx c hc
      · rcases List.mem_append.1 hc with hc | hc
        · rw [List.mem_singleton.1 hc]; exact ⟨by decide, by decide⟩
        · exact ih c hc

theorem expands_format {names : String → Option UInt8} {nameOf : UInt8 → Option (List Char)}
    {xs : List (UInt8 × Option (List UInt8))} {ws : List (List Char)}
    (h : AllPlain names nameOf xs ws) :
    Expands (fun n => builtinMacros.lookup n) (allToks xs ws) (allToks xs ws) := by
  induction h with
  | nil => exact .nil
  | cons hx _ ih =>
    rename_i x w xs ws _
    have h1 : builtinMacros.lookup (String.ofList w) = none := by
      have := lookup_meaning [] (String.ofList w)
      rw [List.reverse_nil, List.nil_append] at this
      rw [this]
      simp [meaning, builtin, hx.notMacro]
    simp only [allToks, opToks]
    cases hi : x.2 with
    | none => exact .keep (fun _ => h1) ih
    | some bs => exact .keep (fun _ => h1) (.keep (fun h => by cases h) ih)

theorem allToks_head {names : String → Option UInt8} {nameOf : UInt8 → Option (List Char)}
    {xs : List (UInt8 × Option (List UInt8))} {ws : List (List Char)}
    (h : AllPlain names nameOf xs ws) : ∀ t r, allToks xs ws = t :: r → t.kind = .ident := by
  intro t r ht
  cases h with
  | nil => cases ht
  | cons _ _ => cases ht; rfl

theorem parse_format {names : String → Option UInt8} {nameOf : UInt8 → Option (List Char)}
    {xs : List (UInt8 × Option (List UInt8))} {ws : List (List Char)}
    (h : AllPlain names nameOf xs ws) :
    parseItems names (allToks xs ws) = .ok (xs.map fun x => opItem x.1 x.2) := by
  unfold parseItems
  induction h with
  | nil => rfl
  | cons hx hxs ih =>
    rename_i x w xs ws
    have he := hx.eip
    simp only [isEip8024, Bool.or_eq_false_iff, beq_eq_false_iff_ne] at he
    have himm := hx.imm
    obtain ⟨o, imm⟩ := x
    simp only at he himm
    have key : ∀ ts : List Token, parseInst names (String.ofList w) ts =
        if minImmLen o > 0 then
          match expectImm ts with
          | .error e => .error e
          | .ok imm => .ok ({ opcode := o, imm := some imm, kind := .fixed (minImmLen o) }, 1)
        else
          match ts with
          | { kind := .number _, .. } :: _ => .error .unexpectedImm
          | _ => .ok ({ opcode := o, imm := none, kind := .none }, 0) := by
      intro ts
      unfold parseInst
      have hb : names (String.ofList w) = some o := hx.back
      rw [if_neg hx.notPush, if_neg (by simp [hx.notDup, hx.notSwap]), hb]
      simp only
      rw [if_neg (by simp [he.1.1, he.1.2]), if_neg he.2]
      split
      · cases expectImm ts <;> rfl
      · cases ts with
        | nil => rfl
        | cons t r => obtain ⟨s, k⟩ := t; cases k <;> rfl
    cases imm with
    | none =>
      simp only at himm
      simp only [allToks, opToks, List.cons_append, List.nil_append, parseItemsFrom, key, himm,
        Nat.lt_irrefl, gt_iff_lt, if_false]
      have hmatch : ∀ ts : List Token, (∀ t r, ts = t :: r → t.kind = .ident) →
          (match ts with
          | { kind := .number _, .. } :: _ => (.error .unexpectedImm : Except Err (Inst × Nat))
          | _ => .ok ({ opcode := o, imm := none, kind := .none }, 0)) =
            .ok ({ opcode := o, imm := none, kind := .none }, 0) := by
        intro ts hts
        split
        · exact absurd (hts _ _ rfl) (by simp)
        · rfl
      rw [hmatch _ (allToks_head hxs)]
      simp only [ih, List.map_cons, opItem]
    | some bs =>
      simp only at himm
      have hpos : minImmLen o > 0 := by
        rw [← himm.1]
        cases bs with
        | nil => exact absurd rfl himm.2.1
        | cons b bs => simp
      simp only [allToks, opToks, List.cons_append, List.nil_append, parseItemsFrom, key, hpos,
        if_true, expectImm, ih, List.map_cons, opItem, himm.1]

theorem emit_format {names : String → Option UInt8} {nameOf : UInt8 → Option (List Char)}
    {xs : List (UInt8 × Option (List UInt8))} {ws : List (List Char)}
    (h : AllPlain names nameOf xs ws) :
    layoutAndEmit (xs.map fun x => opItem x.1 x.2) = .ok (xs.flatMap fun x => x.1 :: x.2.getD []) := by
  have hl : (xs.map fun x => opItem x.1 x.2).any hasLabel = false := by
    rw [List.any_eq_false]
    intro it hit
    obtain ⟨x, _, rfl⟩ := List.mem_map.1 hit
    obtain ⟨o, imm⟩ := x
    cases imm <;> simp [opItem, hasLabel]
  unfold layoutAndEmit
  rw [hl, if_neg (by decide)]
  induction h with
  | nil => rfl
  | cons hx hxs ih =>
    rename_i x w xs ws
    have hl' : (xs.map fun x => opItem x.1 x.2).any hasLabel = false := by
      rw [List.map_cons, List.any_cons, Bool.or_eq_false_iff] at hl; exact hl.2
    have himm := hx.imm
    obtain ⟨o, imm⟩ := x
    rw [List.map_cons, emitAll, ih hl']
    cases imm with
    | none => simp [opItem, emitNoLabel]
    | some bs =>
      simp only at himm
      have hlt : beValue bs < 2 ^ 256 := by
        refine Nat.lt_of_lt_of_le (beValue_lt bs) ?_
        have : (256 : Nat) ^ bs.length ≤ 256 ^ 32 := Nat.pow_le_pow_right (by omega) himm.2.2
        exact this
      have hv : (immWord bs).toNat = beValue bs := by
        rw [immWord, BitVec.toNat_ofNat, Nat.mod_eq_of_lt hlt]
      simp [opItem, emitNoLabel, encodeImm_some, hv, beValue_lt, beBytes_beValue]

theorem minImmLen_le (o : UInt8) : minImmLen o ≤ 32 := by
  revert o; decide +kernel

theorem opcodesOf_cons (infos : UInt8 → OpcodeInfo) (o : UInt8) (r : List UInt8) :
    opcodesOf infos (o :: r) = (o, (iterNext infos o r).1) :: opcodesOf infos (iterNext infos o r).2 := by
  rw [opcodesOf]

/-- The bytes of a decoded code, if no immediate is cut off. -/
theorem opcodesOf_bytes (infos : UInt8 → OpcodeInfo) (n : Nat) : ∀ (code : List UInt8), code.length ≤ n →
    (∀ x ∈ opcodesOf infos code, minImmLen x.1 ≠ 0 → x.2 ≠ none) →
    (opcodesOf infos code).flatMap (fun x => x.1 :: x.2.getD []) = code ∧
      ∀ x ∈ opcodesOf infos code, match x.2 with
        | none => minImmLen x.1 = 0
        | some bs => bs.length = minImmLen x.1 ∧ bs ≠ [] ∧ bs.length ≤ 32 := by
  induction n with
  | zero =>
    intro code hc _
    cases code with
    | nil => simp [opcodesOf]
    | cons o r => simp only [List.length_cons] at hc; omega
  | succ n ih =>
    intro code hc hfull
    cases code with
    | nil => simp [opcodesOf]
    | cons o r =>
      rw [opcodesOf_cons] at hfull ⊢
      simp only [List.length_cons] at hc
      have h0 := hfull _ List.mem_cons_self
      have hlen : (iterNext infos o r).2.length ≤ n := by
        unfold iterNext
        dsimp only
        split
        · split
          · simp only [List.length_drop]; omega
          · simp only; omega
        · simp only; omega
      obtain ⟨h1, h2⟩ := ih _ hlen fun x hx => hfull x (List.mem_cons_of_mem _ hx)
      rw [List.flatMap_cons, h1]
      simp only at h0
      have key : (o :: (iterNext infos o r).1.getD []) ++ (iterNext infos o r).2 = o :: r ∧
          (match (iterNext infos o r).1 with
          | none => minImmLen o = 0
          | some bs => bs.length = minImmLen o ∧ bs ≠ [] ∧ bs.length ≤ 32) := by
        have hle := minImmLen_le o
        unfold iterNext at h0 ⊢
        by_cases ha : opActive (infos o) = true
        · rw [if_pos ha] at h0 ⊢
          by_cases hp : minImmLen o > 0
          · simp only [hp, if_true] at h0 ⊢
            by_cases hr : minImmLen o ≤ r.length
            · simp only [hr, if_true, Option.getD_some, List.cons_append, List.take_append_drop, true_and]
              have : (r.take (minImmLen o)).length = minImmLen o := by
                rw [List.length_take]; omega
              refine ⟨this, ?_, by omega⟩
              intro hnil; rw [hnil] at this; simp only [List.length_nil] at this; omega
            · simp only [hr, if_false] at h0
              exact absurd rfl (h0 (by omega))
          · simp only [hp, if_false] at h0 ⊢
            exact ⟨rfl, by omega⟩
        · rw [if_neg ha] at h0 ⊢
          refine ⟨rfl, ?_⟩
          simp only
          exact Classical.byContradiction fun h => h0 h rfl
      refine ⟨key.1, ?_⟩
      intro x hx
      rcases List.mem_cons.1 hx with rfl | hx
      · exact key.2
      · exact h2 x hx

end Verif.Asm
