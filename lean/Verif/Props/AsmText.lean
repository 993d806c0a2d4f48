import Verif.Lemmas.AsmRound
/-!
# Properties C51 (assembly text), C52 (macros) and C53 (disassembler round trip)
-/

namespace Verif.Asm
open Spec

deriving instance DecidableEq for Except

/-- A table of names for the examples. -/
def demoNames : String → Option UInt8 := fun s =>
  [("STOP", 0x00), ("ADD", 0x01), ("MSTORE", 0x52), ("JUMP", 0x56), ("JUMPDEST", 0x5b), ("PUSH0", 0x5f),
   ("PUSH1", 0x60), ("PUSH2", 0x61), ("DUPN", 0xe6), ("RETURN", 0xf3)].lookup s

/-! ## C51 -/

/-- C51: the tokens of a text are the sequence of lexemes that the text spells, every lexeme taken as
long as possible, with blanks and comments in between; there is exactly one such sequence for every
text. -/
theorem C51_lexemes (cs : List Char) (ts : List Token) : codeTokens cs = ts ↔ Lexed cs ts :=
  ⟨fun h => h ▸ codeTokens_lexed cs, lexed_codeTokens⟩

theorem ascii_class (p : Char → Bool) (l : List Char) (hp : ∀ c, p c = true → c.toNat < 128)
    (hl : ∀ c ∈ l, c.toNat < 128) (h : ∀ n : Fin 128, p (Char.ofNat n) = l.contains (Char.ofNat n))
    (c : Char) : p c = true ↔ c ∈ l := by
  by_cases hc : c.toNat < 128
  · have := h ⟨c.toNat, hc⟩
    simp only [Char.ofNat_toNat] at this
    rw [this, List.contains_iff_mem]
  · exact ⟨fun h' => absurd (hp c h') hc, fun h' => absurd (hl c h') hc⟩

/-- C51: the characters of the classes that the lexemes are made of, and the values of the digits. -/
theorem C51_alphabet (c : Char) :
    (isDigit c = true ↔ c ∈ "0123456789".toList) ∧
    (isHex c = true ↔ c ∈ "0123456789abcdefABCDEF".toList) ∧
    (isWord c = true ↔ c ∈ "0123456789_abcdefghijklmnopqrstuvwxyzABCDEFGHIJKLMNOPQRSTUVWXYZ".toList) ∧
    (isWs c = true ↔ c ∈ [' ', '\t', '\n', '\r', Char.ofNat 12]) ∧
    (isKnown c = true ↔ isWs c = true ∨ isWord c = true ∨ c ∈ ";%$,():".toList) ∧
    ∀ i, "0123456789abcdef".toList[i]? = some c ∨ "0123456789ABCDEF".toList[i]? = some c →
      digitVal c = i := by
  refine ⟨ascii_class _ _ ?_ (by decide +kernel) (by decide +kernel) c,
    ascii_class _ _ ?_ (by decide +kernel) (by decide +kernel) c,
    ascii_class _ _ ?_ (by decide +kernel) (by decide +kernel) c,
    ascii_class _ _ ?_ (by decide +kernel) (by decide +kernel) c, ?_, ?_⟩
  · intro c h; rw [isDigit_iff] at h; omega
  · intro c h
    simp only [isHex, Bool.or_eq_true, isDigit_iff, Bool.and_eq_true, decide_eq_true_eq, Char.le_def,
      UInt32.le_iff_toNat_le] at h
    have e : ∀ d : Char, d.val.toNat = d.toNat := fun _ => rfl
    simp only [e] at h
    have e1 : 'f'.toNat = 102 := rfl
    have e2 : 'F'.toNat = 70 := rfl
    omega
  · intro c h
    simp only [isWord, Bool.or_eq_true, isAlpha_iff, isDigit_iff, beq_iff_eq] at h
    rcases h with (h | h) | rfl
    · omega
    · omega
    · decide
  · intro c h
    rcases isWs_cases h with rfl | rfl | rfl | rfl | rfl <;> decide
  · have hl : ";%$,():".toList = [';', '%', '$', ',', '(', ')', ':'] := by simp
    rw [hl]
    simp only [isKnown, isWord, Bool.or_eq_true, beq_iff_eq, List.mem_cons, List.not_mem_nil, or_false]
    grind
  · intro i h
    have k : ∀ i : Fin 16, (∀ c ∈ "0123456789abcdef".toList[i.1]?, digitVal c = i.1) ∧
        ∀ c ∈ "0123456789ABCDEF".toList[i.1]?, digitVal c = i.1 := by decide +kernel
    have l1 : "0123456789abcdef".toList.length = 16 := by decide +kernel
    have l2 : "0123456789ABCDEF".toList.length = 16 := by decide +kernel
    rcases h with h | h
    · obtain ⟨hi, _⟩ := List.getElem?_eq_some_iff.1 h
      exact (k ⟨i, l1 ▸ hi⟩).1 c h
    · obtain ⟨hi, _⟩ := List.getElem?_eq_some_iff.1 h
      exact (k ⟨i, l2 ▸ hi⟩).2 c h

/-- C51: every text is a sequence of lexemes in exactly one way. -/
theorem C51_unique (cs : List Char) : ∃ ts, Lexed cs ts ∧ ∀ us, Lexed cs us → us = ts :=
  ⟨codeTokens cs, codeTokens_lexed cs, fun _ h => (lexed_codeTokens h).symm⟩

/-- C51: two texts without directives that spell the same lexemes assemble to the same bytes, or are
both rejected: blanks, line ends and comments do not matter. The blanks must be those of the language
(`trim` also removes others at the ends of lines). -/
theorem C51_layout (names : String → Option UInt8) (cs ds : List Char) (ts : List Token)
    (hc : Lexed cs ts) (hd : Lexed ds ts) (h1 : '#' ∉ cs) (h2 : '#' ∉ ds) (p1 : PlainBlanks cs)
    (p2 : PlainBlanks ds) : parseAsm names cs = parseAsm names ds := by
  unfold parseAsm
  rw [preprocess_plain h1 p1, preprocess_plain h2 p2, lexed_codeTokens hc, lexed_codeTokens hd]

/-- C51: the tokens, blanks and comments included, spell the text: nothing is skipped or read twice. -/
theorem C51_lossless (cs : List Char) :
    (tokenize cs).flatMap (fun t => match t.kind with
      | .label => t.src.toList ++ [':']
      | .labelRef => '%' :: t.src.toList
      | .paramRef => '$' :: t.src.toList
      | _ => t.src.toList) = cs := by
  induction hn : cs.length using Nat.strongRecOn generalizing cs with
  | ind n ih =>
    cases hx : nextToken cs with
    | none =>
      cases cs with
      | nil => rw [tokenize_nil]; rfl
      | cons c r =>
        exfalso
        simp only [nextToken] at hx
        repeat' split at hx
        all_goals cases hx
    | some x =>
      have ih' := ih _ (hn ▸ nextToken_lt hx) x.2 rfl
      rw [tokenize_some hx, List.flatMap_cons, ih']
      rcases next_spec hx with ⟨_, w, h2, h3⟩ | ⟨h1, w, h2, h3⟩ | ⟨h1, w, h2, h3, h4⟩
      · generalize x.2 = r at *
        generalize x.1 = t at *
        subst h2
        cases h3 <;> simp [String.toList_ofList]
      · cases cs with
        | nil => cases hx
        | cons c r =>
          have hc : isWs c = true := by
            cases w with
            | nil => have := nextToken_lt hx; rw [h2] at this; exact absurd this (by simp)
            | cons d w =>
              simp only [List.cons_append, List.cons.injEq] at h2
              rw [h2.1]; exact h3 d List.mem_cons_self
          rw [next_ws hc] at hx
          cases hx
          simp only [String.toList_ofList]
          exact List.takeWhile_append_dropWhile
      · cases cs with
        | nil => cases hx
        | cons c r =>
          have hc : c = ';' := by
            simp only [List.cons_append, List.cons.injEq] at h2; exact h2.1
          subst hc
          have h' : nextToken (';' :: r) = some (Token.mk (String.ofList ((';' :: r).takeWhile (· != '\n')))
            .comment, (';' :: r).dropWhile (· != '\n')) := rfl
          rw [h'] at hx
          cases hx
          simp only [String.toList_ofList]
          exact List.takeWhile_append_dropWhile

/-- The same program on one line, and on several with comments. -/
example : parseAsm demoNames "PUSH 0x1234 x: JUMPDEST PUSH %x JUMP".toList =
    .ok [0x61, 0x12, 0x34, 0x5b, 0x60, 3, 0x56] ∧
    parseAsm demoNames "PUSH\t0x1234;(\n ; a comment\n\nx:JUMPDEST\r\n PUSH %x   JUMP ".toList =
    .ok [0x61, 0x12, 0x34, 0x5b, 0x60, 3, 0x56] := by decide +kernel

/-- Its lexemes. -/
example : codeTokens "PUSH 0x10 x:%x;c".toList =
    [⟨"PUSH", .ident⟩, ⟨"0x10", .number 16#256⟩, ⟨"x", .label⟩, ⟨"x", .labelRef⟩] := by decide +kernel

/-- A literal of 2^256 is not a number. -/
example : (codeTokens ("0x1".toList ++ List.replicate 64 '0')).map (·.kind) = [.unknown] := by
  decide +kernel

/-- A no-break space is not a blank between lexemes, but is accepted at the ends of lines. -/
example : parseAsm demoNames ("ADD".toList ++ [Char.ofNat 0xa0]) = .ok [1] ∧
    parseAsm demoNames ("ADD".toList ++ [Char.ofNat 0xa0] ++ "ADD".toList) = .error .unexpectedToken := by
  decide +kernel

/-! ## C52 -/

/-- C52: macro expansion replaces every use of a macro by its body, once, from left to right; arguments
are separated by commas outside parentheses, their number must be that of the parameters, and a
reference to a parameter becomes its argument. Expansions are not expanded again. -/
theorem C52_expansion (ms : Macros) (ts out : List Token) :
    expandMacros ms ts = .ok out ↔ Expands (fun n => ms.lookup n) ts out :=
  ⟨expand_sound _ ms ts out (Nat.le_refl _), expand_complete⟩

/-- C52: preprocessing a source collects its definitions wherever they stand, the last one of a name
counting, and expands the lexemes of the other lines with them. -/
theorem C52_source (cs : List Char) (out : List Token) :
    preprocess cs = .ok out ↔
      ∃ ds raw, Source (lines cs) ds raw ∧ Expands (meaning ds) raw out := by
  have hls : ∀ l ∈ lines cs, '\n' ∉ l := fun l hl => mem_linesFrom_newline (by simp) hl
  have hm : ∀ ds : List (String × MacroDef),
      (fun n => (ds.reverse ++ builtinMacros).lookup n) = meaning ds := by
    intro ds; funext n; exact lookup_meaning ds n
  constructor
  · intro h
    unfold preprocess at h
    split at h
    · cases h
    · rename_i x hx
      obtain ⟨ds, raw, h1, h2, h3⟩ := splitDefines_iff _ hls _ _ hx
      rw [h2, h3] at h
      have := (C52_expansion _ _ _).1 h
      rw [hm] at this
      exact ⟨ds, raw, h1, this⟩
  · rintro ⟨ds, raw, h1, h2⟩
    obtain ⟨rest, e1, e2⟩ := splitDefines_source hls h1 builtinMacros
    unfold preprocess
    rw [e1]
    simp only
    rw [e2]
    refine (C52_expansion _ _ _).2 ?_
    rw [hm]; exact h2

theorem linesFrom_append (a b cur : List Char) :
    linesFrom (a ++ '\n' :: b) cur = linesFrom (a ++ ['\n']) cur ++ linesFrom b [] := by
  induction a generalizing cur with
  | nil => rfl
  | cons c a ih =>
    by_cases hc : c = '\n'
    · subst hc
      simp only [List.cons_append, linesFrom_newline, ih]
    · simp only [List.cons_append, linesFrom_cons hc, ih]

theorem splitDefines_append (ls ks : List (List Char)) (ms : Macros) :
    splitDefines (ls ++ ks) ms = match splitDefines ls ms with
      | .error e => .error e
      | .ok x => match splitDefines ks x.1 with
        | .error e => .error e
        | .ok y => .ok (y.1, x.2 ++ y.2) := by
  induction ls generalizing ms with
  | nil =>
    rw [List.nil_append, splitDefines]
    simp only
    cases splitDefines ks ms <;> rfl
  | cons l ls ih =>
    rw [List.cons_append, splitDefines, splitDefines]
    split
    · split
      · rw [ih]
      · rfl
    · rw [ih]
      cases splitDefines ls ms with
      | error e => rfl
      | ok x =>
        simp only
        cases splitDefines ks x.1 <;> rfl

/-- C52: a definition may stand after the lines that use it: moving it past lines without directives
changes nothing. -/
theorem C52_anywhere (names : String → Option UInt8) (a d b c : List Char) (hd : '\n' ∉ d)
    (hb : '#' ∉ b) :
    parseAsm names (a ++ '\n' :: ("#define ".toList ++ d ++ '\n' :: (b ++ '\n' :: c))) =
      parseAsm names (a ++ '\n' :: (b ++ '\n' :: ("#define ".toList ++ d ++ '\n' :: c))) := by
  have hdl : '\n' ∉ "#define ".toList ++ d := by
    intro h
    rcases List.mem_append.1 h with h | h
    · exact absurd h (by decide +kernel)
    · exact hd h
  have hone : ∀ (l cur : List Char), '\n' ∉ l →
      linesFrom (l ++ ['\n']) cur = [(match l.reverse ++ cur with | '\r' :: c => c | c => c).reverse] := by
    intro l
    induction l with
    | nil => intro cur _; rfl
    | cons x l ih =>
      intro cur hl
      have hx : x ≠ '\n' := fun h => hl (h ▸ List.mem_cons_self)
      rw [List.cons_append, linesFrom_cons hx, ih _ fun h => hl (List.mem_cons_of_mem _ h)]
      simp
  have hdef : ∃ after, defineBody (trim ((match ("#define ".toList ++ d).reverse ++ [] with
      | '\r' :: c => c | c => c).reverse)) = some after := by
    -- the line still begins with the keyword
    have htoks : "#define ".toList = ['#', 'd', 'e', 'f', 'i', 'n', 'e', ' '] := by simp
    rw [htoks]
    have strip : ∃ t, (match (['#', 'd', 'e', 'f', 'i', 'n', 'e', ' '] ++ d).reverse ++ [] with
        | '\r' :: c => c | c => c).reverse = '#' :: 'd' :: 'e' :: 'f' :: 'i' :: 'n' :: 'e' :: ' ' :: t := by
      rw [List.append_nil]
      split
      · rename_i c hc
        have h1 : ['#', 'd', 'e', 'f', 'i', 'n', 'e', ' '] ++ d = c.reverse ++ ['\r'] := by
          have := congrArg List.reverse hc
          simpa using this
        rcases List.eq_nil_or_concat d with rfl | ⟨d', e, rfl⟩
        · exfalso
          have := congrArg List.getLast? h1
          simp at this
        · rw [List.concat_eq_append, ← List.append_assoc] at h1
          have h2 := (List.append_inj' h1 rfl).1
          exact ⟨d', by rw [← h2]; rfl⟩
      · exact ⟨d, by simp⟩
    obtain ⟨t, ht⟩ := strip
    rw [ht]
    -- trimming keeps the keyword
    have key : ∀ u : List Char, ∃ v, ((u.reverse ++ [' ', 'e', 'n', 'i', 'f', 'e', 'd', '#']).dropWhile isUniWs).reverse =
        '#' :: 'd' :: 'e' :: 'f' :: 'i' :: 'n' :: 'e' :: v ∧ ∀ c, v.head? = some c → isWs c = true := by
      intro u
      generalize u.reverse = w
      induction w with
      | nil => exact ⟨[], by decide, fun c hc => by cases hc⟩
      | cons x w ih =>
        by_cases hx : isUniWs x = true
        · rw [List.cons_append, List.dropWhile_cons_of_pos hx]; exact ih
        · rw [List.cons_append, List.dropWhile_cons_of_neg hx]
          refine ⟨' ' :: (x :: w).reverse, ?_, fun c hc => by cases hc; decide⟩
          simp
    obtain ⟨v, hv, hw⟩ := key t
    refine ⟨v, ?_⟩
    have : trim ('#' :: 'd' :: 'e' :: 'f' :: 'i' :: 'n' :: 'e' :: ' ' :: t) =
        '#' :: 'd' :: 'e' :: 'f' :: 'i' :: 'n' :: 'e' :: v := by
      rw [← hv, trim, List.dropWhile_cons_of_neg (by decide)]
      simp
    rw [this]
    exact (defineBody_iff _ _).2 ⟨by simp, hw⟩
  obtain ⟨ln, hln, after, hafter⟩ : ∃ ln, linesFrom ("#define ".toList ++ d ++ ['\n']) [] = [ln] ∧
      ∃ after, defineBody (trim ln) = some after := ⟨_, hone _ _ hdl, hdef⟩
  have hnob : ∀ l ∈ linesFrom (b ++ ['\n']) [], defineBody (trim l) = none := by
    intro l hl
    cases hx : defineBody (trim l) with
    | none => rfl
    | some r =>
      have := mem_linesFrom hl (mem_trim (defineBody_hash hx))
      simp only [List.mem_append, List.mem_singleton, List.not_mem_nil, or_false] at this
      rcases this with h | h
      · exact absurd h hb
      · exact absurd h (by decide)
  have hsplit : splitDefines (lines (a ++ '\n' :: ("#define ".toList ++ d ++ '\n' :: (b ++ '\n' :: c)))) builtinMacros =
      splitDefines (lines (a ++ '\n' :: (b ++ '\n' :: ("#define ".toList ++ d ++ '\n' :: c)))) builtinMacros := by
    unfold lines
    rw [linesFrom_append a ("#define ".toList ++ d ++ '\n' :: (b ++ '\n' :: c)),
      linesFrom_append ("#define ".toList ++ d) (b ++ '\n' :: c), linesFrom_append b c,
      linesFrom_append a (b ++ '\n' :: ("#define ".toList ++ d ++ '\n' :: c)),
      linesFrom_append b ("#define ".toList ++ d ++ '\n' :: c),
      linesFrom_append ("#define ".toList ++ d) c, hln,
      splitDefines_append (linesFrom (a ++ ['\n']) []), splitDefines_append (linesFrom (a ++ ['\n']) [])]
    cases splitDefines (linesFrom (a ++ ['\n']) []) builtinMacros with
    | error e => rfl
    | ok x =>
      simp only
      simp only [splitDefines_append, splitDefines_none _ hnob, splitDefines, hafter]
      cases parseDefine after x.1 with
      | error e => rfl
      | ok ms =>
        simp only
        cases splitDefines (linesFrom c []) ms <;> simp
  unfold parseAsm preprocess
  rw [hsplit]

/-- A macro with two parameters, used before its definition, with a parenthesised argument list inside;
the builtin macro; a redefinition that counts for the whole source. -/
example : parseAsm demoNames "TWO(1, PUSH0 PUSH 0x222) RET_WORD\n#define TWO(a,b) PUSH 9\n  #define TWO(a, b) PUSH $a $b ; x\nADD".toList =
    .ok [0x60, 1, 0x5f, 0x61, 2, 0x22, 0x5f, 0x52, 0x60, 0x20, 0x5f, 0xf3, 1] := by decide +kernel

/-- Expansions are not expanded again: a macro that uses a macro is rejected. -/
example : parseAsm demoNames "#define A ADD\n#define B A A\nB".toList = .error .badOpcode := by
  decide +kernel

/-- Too few arguments, no arguments, no closing parenthesis. -/
example : parseAsm demoNames "#define F(a,b) ADD\nF(1)".toList = .error .badMacro ∧
    parseAsm demoNames "#define F(a,b) ADD\nF ADD".toList = .error .badMacro ∧
    parseAsm demoNames "#define F(a,b) ADD\nF(1,2".toList = .error .badMacro := by decide +kernel

/-! ## C53 -/

/-- The names of `OpCode::parse` and `OPCODE_INFO` (revm) agree, are names of the language, and are none
of the assembler's own words. -/
def Mnemonics (names : String → Option UInt8) (nameOf : UInt8 → Option (List Char)) : Prop :=
  ∀ o w, nameOf o = some w → Name w ∧ names (String.ofList w) = some o ∧
    w ≠ "PUSH".toList ∧ w ≠ "DUP".toList ∧ w ≠ "SWAP".toList ∧ w ≠ "RET_WORD".toList

/-- Every instruction of the code is named and has all its immediate bytes. -/
def Complete (nameOf : UInt8 → Option (List Char)) (infos : UInt8 → OpcodeInfo) (code : List UInt8) : Prop :=
  ∀ x ∈ opcodesOf infos code, (nameOf x.1).isSome ∧ (minImmLen x.1 ≠ 0 → x.2 ≠ none)

/-- The full claim: disassembling a complete code and assembling the text gives the code. It fails for
the instructions of EIP-8024, see `C53_roundtrip_fails`. -/
def C53_roundtrip : Prop :=
  ∀ names nameOf infos code, Mnemonics names nameOf → Complete nameOf infos code →
    parseAsm names (formatBytecode nameOf infos code) = .ok code

/-- C53: disassembling a complete code without instructions of EIP-8024 and assembling the text gives
the code. -/
theorem C53_roundtrip_partial (names : String → Option UInt8) (nameOf : UInt8 → Option (List Char))
    (infos : UInt8 → OpcodeInfo) (code : List UInt8) (hn : Mnemonics names nameOf)
    (hc : Complete nameOf infos code) (he : ∀ x ∈ opcodesOf infos code, isEip8024 x.1 = false) :
    parseAsm names (formatBytecode nameOf infos code) = .ok code := by
  obtain ⟨hbytes, himm⟩ := opcodesOf_bytes infos _ code (Nat.le_refl _) fun x hx => (hc x hx).2
  have hall : ∀ xs : List (UInt8 × Option (List UInt8)), (∀ x ∈ xs, x ∈ opcodesOf infos code) →
      ∃ ws, AllPlain names nameOf xs ws := by
    intro xs
    induction xs with
    | nil => intro _; exact ⟨[], .nil⟩
    | cons x xs ih =>
      intro hxs
      obtain ⟨ws, hws⟩ := ih fun y hy => hxs y (List.mem_cons_of_mem _ hy)
      have hx := hxs x List.mem_cons_self
      obtain ⟨w, hw⟩ := Option.isSome_iff_exists.1 (hc x hx).1
      obtain ⟨h1, h2, h3, h4, h5, h6⟩ := hn _ _ hw
      have hne : ∀ s : String, w ≠ s.toList → String.ofList w ≠ s := by
        intro s h h'
        subst h'
        exact h (by rw [String.toList_ofList])
      exact ⟨w :: ws, .cons ⟨hw, h1, h2, hne _ h3, hne _ h4, hne _ h5, hne _ h6, he x hx, himm x hx⟩ hws⟩
  obtain ⟨ws, hws⟩ := hall _ fun x hx => hx
  have hchars := format_chars hws
  unfold parseAsm formatBytecode
  rw [preprocess_plain (fun h => (hchars _ h).1 rfl) (fun c h => (hchars c h).2),
    lexed_codeTokens (lexed_format hws), (C52_expansion _ _ _).2 (expands_format hws)]
  simp only
  rw [parse_format hws]
  simp only
  rw [emit_format hws, hbytes]

/-- Names of a few opcodes. -/
def demoNameOf : UInt8 → Option (List Char) := fun o =>
  ([(0x00, "STOP"), (0x01, "ADD"), (0x52, "MSTORE"), (0x56, "JUMP"), (0x5b, "JUMPDEST"), (0x5f, "PUSH0"),
   (0x60, "PUSH1"), (0x61, "PUSH2"), (0xe6, "DUPN"), (0xf3, "RETURN")] : List (UInt8 × String)).lookup o
    |>.map String.toList

theorem demo_mnemonics : Mnemonics demoNames demoNameOf := by
  have key : ∀ o : Fin 256, ∀ w ∈ demoNameOf (UInt8.ofNat o), (w ≠ [] ∧ (∀ c ∈ w, isWord c = true) ∧
      (w.head?.all fun c => !isDigit c)) ∧ demoNames (String.ofList w) = some (UInt8.ofNat o) ∧
      w ≠ "PUSH".toList ∧ w ≠ "DUP".toList ∧ w ≠ "SWAP".toList ∧ w ≠ "RET_WORD".toList := by
    decide +kernel
  intro o w hw
  have := key ⟨o.toNat, o.toNat_lt⟩ w (by simpa using hw)
  simp only [UInt8.ofNat_toNat] at this
  obtain ⟨⟨h1, h2, h3⟩, h4⟩ := this
  refine ⟨⟨⟨h1, h2⟩, ?_⟩, h4⟩
  intro c hc
  rw [hc] at h3
  simpa using h3

/-- The disassembly of `PUSH2 0x0102 PUSH0 ADD`, and back. -/
example : formatBytecode demoNameOf (makeMap (fun _ => 0) 18) [0x61, 1, 2, 0x5f, 1] =
    "PUSH2 0x0102 PUSH0 ADD".toList ∧
    parseAsm demoNames "PUSH2 0x0102 PUSH0 ADD".toList = .ok [0x61, 1, 2, 0x5f, 1] ∧
    Complete demoNameOf (makeMap (fun _ => 0) 18) [0x61, 1, 2, 0x5f, 1] := by
  refine ⟨by decide +kernel, by decide +kernel, ?_⟩
  unfold Complete
  decide +kernel

/-- C53: the full claim fails. `DUPN` is printed with its raw immediate, but the assembler expects the
stack index: the code `e6 80` (`DUPN 17`) is printed as `DUPN 0x80`, which assembles to `e6 ef`. -/
theorem C53_roundtrip_fails : ¬ C53_roundtrip := by
  intro h
  have := h demoNames demoNameOf (makeMap (fun _ => 0) SpecId.AMSTERDAM) [0xe6, 0x80] demo_mnemonics
    (by unfold Complete; decide +kernel)
  revert this
  decide +kernel

/-- What comes back instead. -/
example : parseAsm demoNames (formatBytecode demoNameOf (makeMap (fun _ => 0) SpecId.AMSTERDAM) [0xe6, 0x80]) =
    .ok [0xe6, 0xef] := by decide +kernel

end Verif.Asm
