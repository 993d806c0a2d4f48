import Verif.Model.Asm
/-!
# Assembly text

Models the tokenizer, the macro preprocessor and `parse_asm`
(`crates/revmc-codegen/src/bytecode/asm.rs`), and the disassembler `format_bytecode`
(`crates/revmc-codegen/src/bytecode/opcode.rs`). Source text is a list of characters: the Rust code
slices a `&str` at byte offsets, always at character boundaries.
-/

namespace Verif.Asm

/-! ## Characters -/

/-- `char::is_ascii_whitespace` (core). -/
def isWs (c : Char) : Bool :=
  c == ' ' || c == '\t' || c == '\n' || c == '\r' || c == Char.ofNat 0x0c

/-- `char::is_ascii_digit` (core). -/
def isDigit (c : Char) : Bool := '0' ≤ c && c ≤ '9'

/-- `char::is_ascii_alphabetic` (core). -/
def isAlpha (c : Char) : Bool := ('a' ≤ c && c ≤ 'z') || ('A' ≤ c && c ≤ 'Z')

/-- `char::is_ascii_hexdigit` (core). -/
def isHex (c : Char) : Bool := isDigit c || ('a' ≤ c && c ≤ 'f') || ('A' ≤ c && c ≤ 'F')

/-- The characters of a word (asm.rs:108: alphanumeric or underscore). -/
def isWord (c : Char) : Bool := isAlpha c || isDigit c || c == '_'

/-- `char::is_whitespace` (core): the Unicode `White_Space` property, used by `str::trim`. -/
def isUniWs (c : Char) : Bool :=
  (9 ≤ c.toNat && c.toNat ≤ 13) || c.toNat == 0x20 || c.toNat == 0x85 || c.toNat == 0xa0 ||
  c.toNat == 0x1680 || (0x2000 ≤ c.toNat && c.toNat ≤ 0x200a) || c.toNat == 0x2028 ||
  c.toNat == 0x2029 || c.toNat == 0x202f || c.toNat == 0x205f || c.toNat == 0x3000

/-- The value of a digit in base 16. -/
def digitVal (c : Char) : Nat :=
  if isDigit c then c.toNat - 48
  else if 'a' ≤ c && c ≤ 'f' then c.toNat - 87
  else c.toNat - 55

/-- The value of a digit string (`U256::from_str_radix`, ruint, without its overflow check; the empty
string is zero). -/
def digits (radix : Nat) (cs : List Char) : Nat :=
  cs.foldl (fun acc c => acc * radix + digitVal c) 0

/-! ## Tokenizer -/

/-- The characters that end a run of unrecognised ones (asm.rs:213-217). -/
def isKnown (c : Char) : Bool :=
  isWs c || isAlpha c || isDigit c || c == '_' || c == ';' || c == '%' || c == '$' || c == ',' ||
  c == '(' || c == ')' || c == ':'

/-- The number token with text `src` and value `n` (asm.rs:125-128): `U256::from_str` rejects values
above 2^256. -/
def numberToken (src : List Char) (n : Nat) : Token :=
  { src := String.ofList src, kind := if n < 2 ^ 256 then .number (BitVec.ofNat 256 n) else .unknown }

/-- `read_number` (asm.rs:116-129). -/
def readNumber (cs : List Char) : Token × List Char :=
  match cs with
  | '0' :: 'x' :: r =>
    (numberToken ('0' :: 'x' :: r.takeWhile isHex) (digits 16 (r.takeWhile isHex)), r.dropWhile isHex)
  | '0' :: 'X' :: r =>
    (numberToken ('0' :: 'X' :: r.takeWhile isHex) (digits 16 (r.takeWhile isHex)), r.dropWhile isHex)
  | cs => (numberToken (cs.takeWhile isDigit) (digits 10 (cs.takeWhile isDigit)), cs.dropWhile isDigit)

/-- A `%name` or `$name` (asm.rs:160-179), `r` being what follows the sigil. -/
def readRef (sigil : Char) (kind : TokenKind) (r : List Char) : Token × List Char :=
  if r.takeWhile isWord = [] then ({ src := String.ofList [sigil], kind := .unknown }, r)
  else ({ src := String.ofList (r.takeWhile isWord), kind }, r.dropWhile isWord)

/-- A word (asm.rs:199-206): a label definition if a colon follows, else an identifier. -/
def readWord (cs : List Char) : Token × List Char :=
  match cs.dropWhile isWord with
  | ':' :: r => ({ src := String.ofList (cs.takeWhile isWord), kind := .label }, r)
  | r => ({ src := String.ofList (cs.takeWhile isWord), kind := .ident }, r)

/-- `Tokenizer::next` (asm.rs:132-226): the next token and the rest of the text. -/
def nextToken (cs : List Char) : Option (Token × List Char) :=
  match cs with
  | [] => none
  | c :: r =>
    if isWs c then
      some ({ src := String.ofList (cs.takeWhile isWs), kind := .whitespace }, cs.dropWhile isWs)
    else if c == ';' then
      some ({ src := String.ofList (cs.takeWhile (· != '\n')), kind := .comment },
        cs.dropWhile (· != '\n'))
    else if c == '%' then some (readRef '%' .labelRef r)
    else if c == '$' then some (readRef '$' .paramRef r)
    else if c == ',' then some ({ src := String.ofList [c], kind := .comma }, r)
    else if c == '(' then some ({ src := String.ofList [c], kind := .lparen }, r)
    else if c == ')' then some ({ src := String.ofList [c], kind := .rparen }, r)
    else if isDigit c then some (readNumber cs)
    else if isAlpha c || c == '_' then some (readWord cs)
    else if c == ':' then some ({ src := String.ofList [], kind := .label }, r)
    else
      some ({ src := String.ofList (cs.takeWhile fun c => !isKnown c), kind := .unknown },
        cs.dropWhile fun c => !isKnown c)

theorem readNumber_lt (c : Char) (r : List Char) (hd : isDigit c = true) :
    (readNumber (c :: r)).2.length < (c :: r).length := by
  have h := fun (p : Char → Bool) (l : List Char) => (List.dropWhile_sublist (p := p) (l := l)).length_le
  unfold readNumber
  split
  · rename_i r' heq; rw [heq]; have := h isHex r'; simp only [List.length_cons]; omega
  · rename_i r' heq; rw [heq]; have := h isHex r'; simp only [List.length_cons]; omega
  · have := h isDigit r; rw [List.dropWhile_cons_of_pos hd]; simp only [List.length_cons]; omega

theorem readWord_le (cs : List Char) :
    (readWord cs).2.length ≤ (cs.dropWhile isWord).length := by
  unfold readWord
  split
  · rename_i r heq; rw [heq]; simp only [List.length_cons]; omega
  · exact Nat.le_refl _

/-- Every call consumes at least one character, so that the iterator ends. -/
theorem nextToken_lt {cs : List Char} {x : Token × List Char} (h : nextToken cs = some x) :
    x.2.length < cs.length := by
  have hl := fun (p : Char → Bool) (l : List Char) => (List.dropWhile_sublist (p := p) (l := l)).length_le
  have hdrop : ∀ (p : Char → Bool) (c : Char) (r : List Char), p c = true →
      ((c :: r).dropWhile p).length < (c :: r).length := by
    intro p c r hp
    rw [List.dropWhile_cons_of_pos hp]; have := hl p r; simp only [List.length_cons]; omega
  unfold nextToken at h
  split at h
  · cases h
  · rename_i c r
    split at h
    · rename_i hc; cases h; exact hdrop _ _ _ hc
    split at h
    · rename_i hc; cases h; refine hdrop (· != '\n') _ _ ?_; rw [beq_iff_eq] at hc; subst hc; decide
    split at h
    · cases h; unfold readRef
      split
      · exact Nat.lt_succ_self _
      · have := hl isWord r; simp only [List.length_cons]; omega
    split at h
    · cases h; unfold readRef
      split
      · exact Nat.lt_succ_self _
      · have := hl isWord r; simp only [List.length_cons]; omega
    split at h
    · cases h; exact Nat.lt_succ_self _
    split at h
    · cases h; exact Nat.lt_succ_self _
    split at h
    · cases h; exact Nat.lt_succ_self _
    split at h
    · rename_i hd; cases h; exact readNumber_lt c r hd
    split at h
    · rename_i hw; cases h
      refine Nat.lt_of_le_of_lt (readWord_le _) (hdrop _ _ _ ?_)
      simp only [isWord]; rcases Bool.or_eq_true _ _ ▸ hw with h' | h' <;> simp [h']
    split at h
    · cases h; exact Nat.lt_succ_self _
    · rename_i h1 h2 h3 h4 h5 h6 h7 h8 h9 h10
      cases h
      refine hdrop (fun c => !isKnown c) _ _ ?_
      simp only [isKnown]
      simp only [Bool.not_eq_true, Bool.or_eq_false_iff] at h1 h2 h3 h4 h5 h6 h7 h8 h9 h10
      simp only [h1, h2, h3, h4, h5, h6, h7, h8, h9, h10, Bool.or_false, Bool.not_false]

/-- All tokens of a text, whitespace and comments included (asm.rs:132-226). -/
def tokenize (cs : List Char) : List Token :=
  match h : nextToken cs with
  | none => []
  | some x => x.1 :: tokenize x.2
termination_by cs.length
decreasing_by exact nextToken_lt h

/-- The filter of asm.rs:287-290 and 302-304. -/
def Token.isCode (t : Token) : Bool :=
  match t.kind with
  | .whitespace | .comment => false
  | _ => true

/-- The tokens that matter. -/
def codeTokens (cs : List Char) : List Token := (tokenize cs).filter Token.isCode

/-! ## Preprocessor -/

/-- `MacroDef` (asm.rs:232-237). -/
structure MacroDef where
  isFn : Bool
  params : List String
  body : List Token
deriving DecidableEq, Repr

/-- The macro table: the most recent definition first. -/
abbrev Macros := List (String × MacroDef)

/-- `builtin_macros` (asm.rs:240-259). -/
def builtinMacros : Macros :=
  [("RET_WORD", {
    isFn := false
    params := []
    body := [⟨"PUSH0", .ident⟩, ⟨"MSTORE", .ident⟩, ⟨"PUSH1", .ident⟩, ⟨"0x20", .number 0x20#256⟩,
      ⟨"PUSH0", .ident⟩, ⟨"RETURN", .ident⟩] })]

/-- `str::lines` (core): lines end at `\n`, a final `\r` of a line is dropped, and a final empty line is
not produced. `cur` is the current line, reversed. -/
def linesFrom : List Char → List Char → List (List Char)
  | [], cur => if cur = [] then [] else [cur.reverse]
  | '\n' :: r, cur => (match cur with | '\r' :: c => c | c => c).reverse :: linesFrom r []
  | c :: r, cur => linesFrom r (c :: cur)

/-- `str::lines`. -/
def lines (cs : List Char) : List (List Char) := linesFrom cs []

/-- `str::trim` (core). -/
def trim (cs : List Char) : List Char :=
  ((cs.dropWhile isUniWs).reverse.dropWhile isUniWs).reverse

/-- `strip_prefix("#define")` with the check that whitespace or nothing follows (asm.rs:270-272). -/
def defineBody (line : List Char) : Option (List Char) :=
  match line with
  | '#' :: 'd' :: 'e' :: 'f' :: 'i' :: 'n' :: 'e' :: r =>
    match r with
    | [] => some []
    | c :: _ => if isWs c then some r else none
  | _ => none

/-- The parameter list after the first parenthesis (asm.rs:325-343); the Rust loop's index is the
remaining list. -/
def readParams : List Token → Except Err (List String × List Token)
  | ⟨p, .ident⟩ :: ⟨_, .rparen⟩ :: r => .ok ([p], r)
  | ⟨p, .ident⟩ :: ⟨_, .comma⟩ :: r =>
    match readParams r with
    | .ok x => .ok (p :: x.1, x.2)
    | .error e => .error e
  | _ => .error .badMacro

/-- Does `(` follow the macro name at once? (asm.rs:315-316). The name is the first word of the text. -/
def parenFollows (after : List Char) : Bool :=
  ((after.dropWhile isWs).dropWhile isWord).head? == some '('

/-- The parameters and the body (asm.rs:321-350). -/
def readDefine (isFn : Bool) (ts : List Token) : Except Err (List String × List Token) :=
  if isFn then
    match ts with
    | ⟨_, .lparen⟩ :: ⟨_, .rparen⟩ :: r => .ok ([], r)
    | ⟨_, .lparen⟩ :: r => readParams r
    | _ => .ok ([], ts)
  else .ok ([], ts)

/-- `parse_define` (asm.rs:301-354). -/
def parseDefine (after : List Char) (ms : Macros) : Except Err Macros :=
  match codeTokens after with
  | ⟨name, .ident⟩ :: ts =>
    match readDefine (parenFollows after) ts with
    | .ok x => .ok ((name, { isFn := parenFollows after, params := x.1, body := x.2 }) :: ms)
    | .error e => .error e
  | _ => .error .badMacro

/-- The first loop of `preprocess` (asm.rs:268-281): the macros and the other lines. -/
def splitDefines : List (List Char) → Macros → Except Err (Macros × List (List Char))
  | [], ms => .ok (ms, [])
  | l :: r, ms =>
    match defineBody (trim l) with
    | some after =>
      match parseDefine after ms with
      | .ok ms' => splitDefines r ms'
      | .error e => .error e
    | none =>
      match splitDefines r ms with
      | .ok x => .ok (x.1, trim l :: x.2)
      | .error e => .error e

/-- The argument loop (asm.rs:385-406): `depth` open parentheses, the arguments so far and the current
one (both reversed). Returns the arguments and what follows the closing parenthesis. -/
def readArgs : List Token → Nat → List (List Token) → List Token →
    Except Err (List (List Token) × List Token)
  | [], _, _, _ => .error .badMacro
  | t :: r, depth, done, cur =>
    match t.kind with
    | .lparen => readArgs r (depth + 1) done (t :: cur)
    | .rparen =>
      if depth = 1 then .ok ((cur.reverse :: done).reverse, r)
      else readArgs r (depth - 1) done (t :: cur)
    | .comma =>
      if depth = 1 then readArgs r depth (cur.reverse :: done) []
      else readArgs r depth done (t :: cur)
    | _ => readArgs r depth done (t :: cur)

/-- The rest after the arguments is shorter. -/
theorem readArgs_lt {ts : List Token} {depth : Nat} {done : List (List Token)} {cur : List Token}
    {x : List (List Token) × List Token} (h : readArgs ts depth done cur = .ok x) :
    x.2.length < ts.length := by
  induction ts generalizing depth done cur with
  | nil => cases h
  | cons t r ih =>
    simp only [readArgs] at h
    simp only [List.length_cons]
    split at h
    · have := ih h; omega
    · split at h
      · cases h; exact Nat.lt_succ_self _
      · have := ih h; omega
    · split at h
      · have := ih h; omega
      · have := ih h; omega
    · have := ih h; omega

/-- Are there as many arguments as parameters? (asm.rs:409-421). -/
def arityOk (params : List String) (args : List (List Token)) : Bool :=
  if params = [] then args == [[]] else args.length == params.length

/-- Substitution in the body (asm.rs:424-432); `position` finds the first parameter of that name. -/
def substitute (params : List String) (args : List (List Token)) (body : List Token) : List Token :=
  body.flatMap fun t =>
    match t.kind with
    | .paramRef =>
      match params.idxOf? t.src with
      | some i => (args[i]?).getD []
      | none => [t]
    | _ => [t]

/-- `expand_macros` (asm.rs:357-436). -/
def expandMacros (ms : Macros) (ts : List Token) : Except Err (List Token) :=
  match ts with
  | [] => .ok []
  | t :: r =>
    match if t.kind = .ident then ms.lookup t.src else none with
    | none =>
      match expandMacros ms r with
      | .ok out => .ok (t :: out)
      | .error e => .error e
    | some m =>
      if m.isFn then
        match r with
        | ⟨_, .lparen⟩ :: r' =>
          match h : readArgs r' 1 [] [] with
          | .error e => .error e
          | .ok x =>
            if arityOk m.params x.1 then
              match expandMacros ms x.2 with
              | .ok out => .ok (substitute m.params x.1 m.body ++ out)
              | .error e => .error e
            else .error .badMacro
        | _ => .error .badMacro
      else
        match expandMacros ms r with
        | .ok out => .ok (m.body ++ out)
        | .error e => .error e
termination_by ts.length
decreasing_by
  all_goals simp_wf
  all_goals (try have := readArgs_lt h)
  all_goals (try simp only [List.length_cons] at *)
  all_goals omega

/-- `preprocess` (asm.rs:264-298); the macro table is never empty. -/
def preprocess (cs : List Char) : Except Err (List Token) :=
  match splitDefines (lines cs) builtinMacros with
  | .error e => .error e
  | .ok x => expandMacros x.1 (x.2.flatMap codeTokens)

/-- `parse_asm` (asm.rs:34-38). -/
def parseAsm (names : String → Option UInt8) (cs : List Char) : Except Err (List UInt8) :=
  match preprocess cs with
  | .error e => .error e
  | .ok ts =>
    match parseItems names ts with
    | .error e => .error e
    | .ok items => layoutAndEmit items

/-! ## Disassembler -/

/-- One hexadecimal digit, lower case. -/
def hexDigit (n : Nat) : Char := if n < 10 then Char.ofNat (48 + n) else Char.ofNat (87 + n)

/-- `hex::encode` (alloy): two digits per byte. -/
def hexBytes (bs : List UInt8) : List Char :=
  bs.flatMap fun b => [hexDigit (b.toNat / 16), hexDigit (b.toNat % 16)]

/-- `Display for Opcode` (opcode.rs:174-184); `nameOf` is `OPCODE_INFO[..].name()` (revm). -/
def showOpcode (nameOf : UInt8 → Option (List Char)) (o : UInt8) (imm : Option (List UInt8)) :
    List Char :=
  (match nameOf o with
    | some n => n
    | none => "UNKNOWN(0x".toList ++ hexBytes [o] ++ [')']) ++
  match imm with
  | some bs => ' ' :: '0' :: 'x' :: hexBytes bs
  | none => []

/-- `OpcodesIter` (opcode.rs:120-146): the opcodes of a byte string with their immediates. -/
def opcodesOf (infos : UInt8 → OpcodeInfo) (code : List UInt8) : List (UInt8 × Option (List UInt8)) :=
  match code with
  | [] => []
  | o :: r => (o, (iterNext infos o r).1) :: opcodesOf infos (iterNext infos o r).2
termination_by code.length
decreasing_by
  simp only [List.length_cons, iterNext]
  repeat' split
  all_goals simp only [List.length_drop]
  all_goals omega

/-- `format_bytecode` (opcode.rs:63-73, 270-284): the opcodes, separated by spaces. -/
def formatBytecode (nameOf : UInt8 → Option (List Char)) (infos : UInt8 → OpcodeInfo)
    (code : List UInt8) : List Char :=
  [' '].intercalate ((opcodesOf infos code).map fun x => showOpcode nameOf x.1 x.2)

end Verif.Asm
