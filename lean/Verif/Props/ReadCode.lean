import Verif.Lemmas.ReadCode
/-!
# C74: code and numbers given as text are read as what they say
-/

namespace Verif.ReadCode
open Spec

section
variable (utf8 : List UInt8 → Option (List Char)) (asm : List Char → Option (List UInt8))

/-- C74: code that begins with `0x` is read as the bytes whose hex is on the first line, whatever white space follows
and whatever comes on later lines, unless the extension says that it is binary. -/
theorem C74_prefixed (contents : List UInt8) (ext : Option Ext) (cs ws rest : List Char) (b : List UInt8)
    (hext : ext ≠ some .bin) (hp : hasPrefix contents = true)
    (hu : utf8 contents = some ('0' :: 'x' :: cs ++ (ws ++ rest))) (hx : Hex cs b)
    (hws : ∀ c ∈ ws, isWs c = true) (hr : rest = [] ∨ ∃ r, rest = '\n' :: r) :
    readCode utf8 asm contents ext = some b := by
  unfold readCode
  rw [if_pos ⟨hext, .inr hp⟩, hu, Option.bind_some, firstLine_trim (by simp) ?_ hws hr]
  · exact (decode_iff _ _).2 (.inr ⟨cs, rfl, hx⟩)
  · intro c hc
    rcases List.mem_cons.1 hc with rfl | hc
    · exact ⟨by decide, by decide⟩
    · rcases List.mem_cons.1 hc with rfl | hc
      · exact ⟨by decide, by decide⟩
      · exact hex_ws hx c hc

/-- C74: with the extension `hex` the prefix may be missing. -/
theorem C74_hex_file (contents : List UInt8) (cs ws rest : List Char) (b : List UInt8)
    (hu : utf8 contents = some (cs ++ (ws ++ rest))) (hx : Hex cs b) (hne : cs ≠ [])
    (hws : ∀ c ∈ ws, isWs c = true) (hr : rest = [] ∨ ∃ r, rest = '\n' :: r) :
    readCode utf8 asm contents (some .hex) = some b := by
  unfold readCode
  rw [if_pos ⟨by decide, .inl rfl⟩, hu, Option.bind_some, firstLine_trim hne (hex_ws hx) hws hr]
  exact (decode_iff _ _).2 (.inl hx)

/-- C74: nothing but hex is accepted as hex: what is read is on the first line. -/
theorem C74_hex_only (contents : List UInt8) (ext : Option Ext) (b : List UInt8)
    (hext : ext ≠ some .bin) (hh : ext = some .hex ∨ hasPrefix contents = true)
    (h : readCode utf8 asm contents ext = some b) :
    ∃ s, utf8 contents = some s ∧
      (Hex (firstLine (trim s)) b ∨ ∃ cs, firstLine (trim s) = '0' :: 'x' :: cs ∧ Hex cs b) := by
  unfold readCode at h
  rw [if_pos ⟨hext, hh⟩] at h
  obtain ⟨s, hs, h⟩ := Option.bind_eq_some_iff.1 h
  exact ⟨s, hs, (decode_iff _ _).1 h⟩

/-- C74: a binary file is read as it is, as is one without prefix that is not ASCII, unless it is called `hex`. -/
theorem C74_binary (contents : List UInt8) (ext : Option Ext)
    (h : ext = some .bin ∨ (ext ≠ some .hex ∧ hasPrefix contents = false ∧ ∃ x ∈ contents, 128 ≤ x.toNat)) :
    readCode utf8 asm contents ext = some contents := by
  unfold readCode
  rcases h with h | ⟨h1, h2, x, h3, h4⟩
  · rw [if_neg (by simp [h]), if_pos (.inl h)]
  · have ha : isAscii contents = false := by
      unfold isAscii
      rw [List.all_eq_false]
      refine ⟨x, h3, ?_⟩
      simp only [decide_eq_true_eq, UInt8.not_lt]
      exact UInt8.le_iff_toNat_le.2 h4
    rw [if_neg (by simp [h1, h2]), if_pos (.inr ha)]

/-- C74: ASCII text without prefix and extension is assembly if the assembler takes it, and otherwise hex. -/
theorem C74_text (contents : List UInt8) (s : List Char) (hp : hasPrefix contents = false)
    (ha : ∀ x ∈ contents, x.toNat < 128) (hu : utf8 contents = some s) (b : List UInt8) :
    readCode utf8 asm contents none = some b ↔
      asm (trim s) = some b ∨
      (asm (trim s) = none ∧ (Hex (trim s) b ∨ ∃ cs, trim s = '0' :: 'x' :: cs ∧ Hex cs b)) := by
  have hb : isAscii contents = true := by
    unfold isAscii
    rw [List.all_eq_true]
    intro x hx
    simpa using UInt8.lt_iff_toNat_lt.2 (ha x hx)
  unfold readCode
  rw [if_neg (by simp [hp]), if_neg (by simp [hb]), if_neg (by simp), hu, Option.bind_some, ← decode_iff]
  cases asm (trim s) <;> simp

/-- The full claim: the same with the prefix `0X`, which is recognised too. -/
def C74_upper : Prop :=
  ∀ (utf8 : List UInt8 → Option (List Char)) (asm : List Char → Option (List UInt8)) (contents : List UInt8) (cs : List Char)
    (b : List UInt8), utf8 contents = some ('0' :: 'X' :: cs) → contents = ('0' :: 'X' :: cs).map (fun c => UInt8.ofNat c.toNat) →
    Hex cs b → readCode utf8 asm contents none = some b

/-- C74: it is false: such text is taken to be hex and then refused. -/
theorem C74_upper_fails : ¬ C74_upper := by
  intro h
  have := h (fun b => some (b.map fun x => Char.ofNat x.toNat)) (fun _ => none) [48, 88, 54, 48] ['6', '0'] [0x60]
    (by decide) (by decide) (.cons (x := 6) (y := 0) (.inl (by decide)) (.inl (by decide)) (by decide) .nil)
  revert this
  decide

end

/-- C74: a number in hex is read as that number if it fits, and refused otherwise. -/
theorem C74_number (bits : Nat) (s : List Char) (ds : List Nat) (h : Written s ds) :
    parseNum bits s = if number 16 ds < 2 ^ bits then some (number 16 ds) else none := by
  rw [written_iff] at h
  unfold parseNum
  dsimp only
  generalize strip0x (trim s) = t at h
  have hpos : 0 < 2 ^ bits := Nat.pow_pos (by omega)
  split
  · rename_i he
    rw [List.isEmpty_iff.1 he] at h
    cases h
    simp [number, hpos]
  · rw [radix_eq bits 0 h hpos]
    simp

/-- C74: nothing else is read as a number. -/
theorem C74_number_only (bits : Nat) (s : List Char) (v : Nat) (h : parseNum bits s = some v) :
    ∃ ds, Written s ds ∧ v = number 16 ds ∧ v < 2 ^ bits := by
  have hd : ∃ ds, Written s ds := by
    simp only [written_iff]
    unfold parseNum at h
    dsimp only at h
    split at h
    · rename_i he
      rw [List.isEmpty_iff.1 he]
      exact ⟨[], .nil⟩
    · exact radix_digits bits 0 v _ h
  obtain ⟨ds, hd⟩ := hd
  rw [C74_number bits s ds hd] at h
  split at h
  · rename_i hl
    cases h
    exact ⟨ds, hd, rfl, hl⟩
  · cases h

/-- C74: bytes in hex are read as the bytes of that number; an odd number of digits gets a zero in front. -/
theorem C74_bytes (s : List Char) (ds : List Nat) (h : Written s ds) :
    ∃ b, parseBytes s = some b ∧ number 256 (b.map (·.toNat)) = number 16 ds ∧ b.length = (ds.length + 1) / 2 :=
  parseBytes_eq ((written_iff s ds).1 h)

/-- The full claim: nothing else is read as bytes. -/
def C74_bytes_only : Prop := ∀ (s : List Char) (b : List UInt8), parseBytes s = some b → ∃ ds, Written s ds

/-- C74: it is false: the zero in front of `x12` makes a prefix. -/
theorem C74_bytes_only_fails : ¬ C74_bytes_only := by
  intro h
  obtain ⟨ds, h⟩ := h ['x', '1', '2'] [0x12] (by decide)
  rw [written_iff] at h
  have e : strip0x (trim ['x', '1', '2']) = ['x', '1', '2'] := by decide
  rw [e] at h
  cases h with
  | cons h _ => exact x_no_digit _ h

/-- C74: nothing else is read as bytes, but for an `x` or a second prefix after the prefix. -/
theorem C74_bytes_only_partial (s : List Char) (b : List UInt8) (h : parseBytes s = some b) :
    (∃ ds, Written s ds) ∨ (∃ cs, strip0x (trim s) = 'x' :: cs) ∨ ∃ cs, strip0x (trim s) = '0' :: 'x' :: cs := by
  simp only [written_iff]
  unfold parseBytes at h
  dsimp only at h
  generalize strip0x (trim s) = t at h ⊢
  split at h
  · rename_i he
    rw [List.isEmpty_iff.1 he]
    exact .inl ⟨[], .nil⟩
  · split at h
    · rcases (decode_iff _ _).1 h with h | ⟨cs, h, _⟩
      · exact .inl (hex_digits h)
      · exact .inr (.inr ⟨cs, h⟩)
    · rcases (decode_iff _ _).1 h with h | ⟨cs, h, _⟩
      · obtain ⟨ds, h⟩ := hex_digits h
        cases h with
        | cons _ h => exact .inl ⟨_, h⟩
      · exact .inr (.inl ⟨cs, (List.cons.inj h).2⟩)

/-- C74: an address or hash in hex is that number in exactly as many bytes, and refused if it has more digits. -/
theorem C74_array (s : List Char) (n : Nat) (ds : List Nat) (h : Written s ds) :
    (ds.length ≤ 2 * n →
      ∃ b, parseArray s n = some b ∧ b.length = n ∧ number 256 (b.map (·.toNat)) = number 16 ds) ∧
    (2 * n < ds.length → parseArray s n = none) := by
  obtain ⟨b, h1, h2, h3⟩ := parseBytes_eq ((written_iff s ds).1 h)
  unfold parseArray parseFixed
  rw [h1]
  simp only [Option.map_some, Option.bind_some]
  constructor
  · intro hl
    split
    · rename_i hlt
      have hlen : (List.replicate (n - b.length) (0 : UInt8) ++ b).length = n := by
        rw [List.length_append, List.length_replicate]; omega
      refine ⟨_, if_pos hlen, hlen, ?_⟩
      rw [List.map_append, List.map_replicate, ← h2]
      exact number_zeros _ _ _
    · exact ⟨b, if_pos (by omega), by omega, h2⟩
  · intro hl
    have hn : ¬ b.length < n := by omega
    simp only [hn, if_false]
    rw [if_neg (by omega)]

/-- The full claim: a recipient that is missing or has no digits means a creation, one with up to 40 digits a call of that
address. -/
def C74_kind : Prop :=
  ∀ (v : List Char) (ds : List Nat), Written v ds → ds.length ≤ 40 →
    (ds = [] → txKind (some v) = some none) ∧
    (ds ≠ [] → ∃ a, txKind (some v) = some (some a) ∧ a.length = 20 ∧ number 256 (a.map (·.toNat)) = number 16 ds)

/-- C74: it is false: `0X` is a call of address zero. -/
theorem C74_kind_fails : ¬ C74_kind := by
  intro h
  have := (h ['0', 'X'] [] ((written_iff _ _).2 .nil) (by decide)).1 rfl
  revert this
  decide

/-- C74: it holds for all but `0X`. -/
theorem C74_kind_partial (v : List Char) (ds : List Nat) (h : Written v ds) (hl : ds.length ≤ 40) :
    txKind none = some none ∧
    ((∀ c ∈ v, c ≠ 'X') → ds = [] → txKind (some v) = some none) ∧
    (ds ≠ [] → ∃ a, txKind (some v) = some (some a) ∧ a.length = 20 ∧ number 256 (a.map (·.toNat)) = number 16 ds) := by
  have ha := C74_array v 20 ds h
  obtain ⟨w, p, cs, w', hw, hw', hp, hd, rfl⟩ := h
  have ht := trim_written hw hw' hp hd
  refine ⟨rfl, ?_, ?_⟩
  · rintro hX rfl
    cases hd
    unfold txKind
    rcases hp with rfl | rfl | rfl
    · simp only [ht]; rfl
    · simp only [ht]; rfl
    · exact absurd rfl (hX 'X' (by simp))
  · intro hne
    obtain ⟨a, h1, h2, h3⟩ := ha.1 (by omega)
    refine ⟨a, ?_, h2, h3⟩
    have e : trim (w ++ (p ++ cs ++ w')) ≠ [] ∧ trim (w ++ (p ++ cs ++ w')) ≠ ['0', 'x'] := by
      rw [ht]
      cases hd with
      | nil => exact absurd rfl hne
      | cons hd hs =>
        constructor
        · simp
        · rcases hp with rfl | rfl | rfl
          · intro e
            simp only [List.nil_append, List.cons.injEq] at e
            rw [e.2] at hs
            cases hs with
            | cons h _ => exact x_no_digit _ h
          · simp
          · simp
    unfold txKind
    generalize w ++ (p ++ cs ++ w') = v at h1 e ⊢
    simp [h1, e.1, e.2]

/-- UTF-8 on ASCII. -/
private def ascii (b : List UInt8) : Option (List Char) := some (b.map fun x => Char.ofNat x.toNat)

private def sampleHex : List UInt8 := [48, 120, 54, 48, 48, 65, 32, 10, 65]

example : Hex ['6', '0', '0', 'A'] [0x60, 0x0a] :=
  .cons (x := 6) (y := 0) (.inl (by decide)) (.inl (by decide)) (by decide)
    (.cons (x := 0) (y := 10) (.inl (by decide)) (.inr (by decide)) (by decide) .nil)

example : readCode ascii (fun _ => none) sampleHex none = some [0x60, 0x0a] ∧ hasPrefix sampleHex = true ∧
    ascii sampleHex = some ('0' :: 'x' :: ['6', '0', '0', 'A'] ++ ([' '] ++ ['\n', 'A'])) := by decide

example : readCode ascii (fun _ => none) [54, 48, 10] (some .hex) = some [0x60] ∧
    readCode ascii (fun _ => none) sampleHex (some .bin) = some sampleHex ∧
    readCode ascii (fun _ => none) [0x60, 0x80] none = some [0x60, 0x80] ∧
    readCode ascii (fun _ => some [1]) [54, 48] none = some [1] ∧
    readCode ascii (fun _ => none) [54, 48] none = some [0x60] := by decide

example : Written [' ', '0', 'X', 'f', '2', '\n'] [15, 2] :=
  (written_iff _ _).2 (.cons (.inr (by decide)) (.cons (.inl (by decide)) .nil))

example : parseNum 64 [' ', '0', 'X', 'f', 'F', '\n'] = some 255 ∧ parseNum 8 ['1', '0', '0'] = none ∧
    parseNum 64 ['0', 'x'] = some 0 ∧ parseBytes ['0', 'x', '1', '2', '3'] = some [1, 0x23] ∧
    parseArray ['0', 'x', '1', '2', '3'] 4 = some [0, 0, 1, 0x23] ∧ parseArray ['1', '2', '3'] 1 = none ∧
    txKind (some ['0', 'x']) = some none ∧ (txKind (some ['0', 'x', '5'])).isSome = true := by decide

end Verif.ReadCode
