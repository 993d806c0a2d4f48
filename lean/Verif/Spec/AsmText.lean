import Verif.Model.AsmText
/-!
# Specification: assembly text

What the lexemes of the assembly language are, when a text is a sequence of them, and what macro
expansion means. Nothing here refers to the tokenizer or to the expander.
-/

namespace Verif.Asm.Spec

/-- A word: letters, digits and underscores. -/
def Word' (w : List Char) : Prop := w ≠ [] ∧ ∀ c ∈ w, isWord c = true

/-- A name: a word that does not begin with a digit. -/
def Name (w : List Char) : Prop := Word' w ∧ ∀ c, w.head? = some c → isDigit c = false

/-- What may follow, if anything. -/
def NextNot (r : List Char) (p : Char → Bool) : Prop := ∀ c, r.head? = some c → p c = false

/-- The digits of a number literal in some base. -/
def Digits (radix : Nat) (p : Char → Bool) (ds : List Char) (n : Nat) : Prop :=
  (∀ c ∈ ds, p c = true) ∧ n = ds.foldl (fun acc c => acc * radix + digitVal c) 0

/-- A number literal's text with its value; decimal, or hexadecimal after `0x` or `0X`. -/
inductive Literal : List Char → List Char → Nat → Prop
  | decimal {ds r : List Char} {n : Nat} : ds ≠ [] → Digits 10 isDigit ds n → NextNot r isDigit →
      (ds = ['0'] → NextNot r (fun c => c == 'x' || c == 'X')) → Literal ds r n
  | hex {x : Char} {ds r : List Char} {n : Nat} : x = 'x' ∨ x = 'X' → Digits 16 isHex ds n →
      NextNot r isHex → Literal ('0' :: x :: ds) r n

/-- `Lexeme cs r t`: the characters `cs`, followed by `r`, are the token `t`. Each lexeme is as long as
it can be. -/
inductive Lexeme : List Char → List Char → Token → Prop
  | ident {w r : List Char} : Name w → NextNot r (fun c => isWord c || c == ':') →
      Lexeme w r ⟨String.ofList w, .ident⟩
  | label {w r : List Char} : Name w → Lexeme (w ++ [':']) r ⟨String.ofList w, .label⟩
  | emptyLabel {r : List Char} : Lexeme [':'] r ⟨String.ofList [], .label⟩
  | labelRef {w r : List Char} : Word' w → NextNot r isWord →
      Lexeme ('%' :: w) r ⟨String.ofList w, .labelRef⟩
  | paramRef {w r : List Char} : Word' w → NextNot r isWord →
      Lexeme ('$' :: w) r ⟨String.ofList w, .paramRef⟩
  | number {w r : List Char} {n : Nat} : Literal w r n → n < 2 ^ 256 →
      Lexeme w r ⟨String.ofList w, .number (BitVec.ofNat 256 n)⟩
  | comma {r : List Char} : Lexeme [','] r ⟨String.ofList [','], .comma⟩
  | lparen {r : List Char} : Lexeme ['('] r ⟨String.ofList ['('], .lparen⟩
  | rparen {r : List Char} : Lexeme [')'] r ⟨String.ofList [')'], .rparen⟩
  /-- A literal of 2^256 or more. -/
  | huge {w r : List Char} {n : Nat} : Literal w r n → 2 ^ 256 ≤ n →
      Lexeme w r ⟨String.ofList w, .unknown⟩
  /-- A sigil without a name. -/
  | sigil {c : Char} {r : List Char} : c = '%' ∨ c = '$' → NextNot r isWord →
      Lexeme [c] r ⟨String.ofList [c], .unknown⟩
  /-- A run of characters the language does not use. -/
  | junk {w r : List Char} : w ≠ [] → (∀ c ∈ w, isKnown c = false) →
      NextNot r (fun c => !isKnown c) → Lexeme w r ⟨String.ofList w, .unknown⟩

/-- `Lexed cs ts`: the text is the lexemes `ts`, with blanks and comments in between. A comment goes
from `;` to the end of the line. -/
inductive Lexed : List Char → List Token → Prop
  | nil : Lexed [] []
  | blank {c : Char} {r : List Char} {ts : List Token} : isWs c = true → Lexed r ts →
      Lexed (c :: r) ts
  | comment {c r : List Char} {ts : List Token} : (∀ x ∈ c, x ≠ '\n') →
      (r = [] ∨ r.head? = some '\n') → Lexed r ts → Lexed (';' :: c ++ r) ts
  | lexeme {w r : List Char} {t : Token} {ts : List Token} : Lexeme w r t → Lexed r ts →
      Lexed (w ++ r) (t :: ts)

/-- The text of a line without a `#define`: its blanks are only those the tokenizer skips too. -/
def PlainBlanks (cs : List Char) : Prop := ∀ c ∈ cs, isUniWs c = true → isWs c = true

/-! ## Macros -/

/-- Balanced parentheses. -/
inductive Balanced : List Token → Prop
  | nil : Balanced []
  | token {t : Token} {ts : List Token} : t.kind ≠ .lparen → t.kind ≠ .rparen → Balanced ts →
      Balanced (t :: ts)
  | group {l r : Token} {a b : List Token} : l.kind = .lparen → r.kind = .rparen → Balanced a →
      Balanced b → Balanced (l :: a ++ r :: b)

/-- A macro argument: balanced, and commas only inside parentheses. -/
inductive Arg : List Token → Prop
  | nil : Arg []
  | token {t : Token} {ts : List Token} : t.kind ≠ .lparen → t.kind ≠ .rparen → t.kind ≠ .comma →
      Arg ts → Arg (t :: ts)
  | group {l r : Token} {a b : List Token} : l.kind = .lparen → r.kind = .rparen → Balanced a →
      Arg b → Arg (l :: a ++ r :: b)

/-- `ArgList ts as`: the tokens are the arguments `as`, separated by commas. -/
inductive ArgList : List Token → List (List Token) → Prop
  | one {a : List Token} : Arg a → ArgList a [a]
  | more {a ts : List Token} {c : Token} {as : List (List Token)} : Arg a → c.kind = .comma →
      ArgList ts as → ArgList (a ++ c :: ts) (a :: as)

/-- Body token `t` with parameters replaced: a reference to a parameter is its argument (the first
parameter of that name), everything else stays. -/
inductive SubstTok (params : List String) (args : List (List Token)) : Token → List Token → Prop
  | param {t : Token} {i : Nat} {a : List Token} : t.kind = .paramRef → params[i]? = some t.src →
      (∀ j : Nat, j < i → params[j]? ≠ some t.src) → args[i]? = some a → SubstTok params args t a
  | other {t : Token} : (t.kind = .paramRef → t.src ∉ params) → SubstTok params args t [t]

/-- The body with parameters replaced. -/
inductive Subst (params : List String) (args : List (List Token)) : List Token → List Token → Prop
  | nil : Subst params args [] []
  | cons {t : Token} {ts a out : List Token} : SubstTok params args t a → Subst params args ts out →
      Subst params args (t :: ts) (a ++ out)

/-- Macro expansion with table `ms`, left to right. An expansion is not scanned again. -/
inductive Expands (ms : String → Option MacroDef) : List Token → List Token → Prop
  | nil : Expands ms [] []
  /-- Anything but the name of a macro stays. -/
  | keep {t : Token} {ts out : List Token} : (t.kind = .ident → ms t.src = none) →
      Expands ms ts out → Expands ms (t :: ts) (t :: out)
  /-- A macro without parameter list is its body. -/
  | object {t : Token} {m : MacroDef} {ts out : List Token} : t.kind = .ident → ms t.src = some m →
      m.isFn = false → Expands ms ts out → Expands ms (t :: ts) (m.body ++ out)
  /-- A macro with parameter list takes one argument per parameter, or `()` if it has none. -/
  | call {t l r : Token} {m : MacroDef} {as : List (List Token)} {inner sub ts out : List Token} :
      t.kind = .ident → ms t.src = some m → m.isFn = true → l.kind = .lparen → r.kind = .rparen →
      ArgList inner as →
      (m.params = [] → inner = []) → (m.params ≠ [] → as.length = m.params.length) →
      Subst m.params as m.body sub → Expands ms ts out →
      Expands ms (t :: l :: inner ++ r :: ts) (sub ++ out)

/-! ## Definitions -/

/-- `ParamToks ts ps body`: parameter names separated by commas, a closing parenthesis, the body. -/
inductive ParamToks : List Token → List String → List Token → Prop
  | last {p r : Token} {body : List Token} : p.kind = .ident → r.kind = .rparen →
      ParamToks (p :: r :: body) [p.src] body
  | more {p c : Token} {ts body : List Token} {ps : List String} : p.kind = .ident → c.kind = .comma →
      ParamToks ts ps body → ParamToks (p :: c :: ts) (p.src :: ps) body

/-- `Definition after name m`: what follows `#define` defines `name` as `m`. A parameter list must
follow the name at once. -/
inductive Definition : List Char → String → MacroDef → Prop
  | object {b w r : List Char} {body : List Token} : (∀ c ∈ b, isWs c = true) → Name w →
      NextNot r (fun c => isWord c || c == ':' || c == '(') → Lexed r body →
      Definition (b ++ (w ++ r)) (String.ofList w) ⟨false, [], body⟩
  | niladic {b w r : List Char} {c : Token} {body : List Token} : (∀ c ∈ b, isWs c = true) → Name w →
      c.kind = .rparen → Lexed r (c :: body) →
      Definition (b ++ (w ++ '(' :: r)) (String.ofList w) ⟨true, [], body⟩
  | function {b w r : List Char} {ts body : List Token} {ps : List String} :
      (∀ c ∈ b, isWs c = true) → Name w → Lexed r ts → ParamToks ts ps body →
      Definition (b ++ (w ++ '(' :: r)) (String.ofList w) ⟨true, ps, body⟩

/-- The line is a directive, with `after` following the keyword. -/
def Directive (l after : List Char) : Prop :=
  l = "#define".toList ++ after ∧ ∀ c, after.head? = some c → isWs c = true

/-- `Source ls ds raw`: lines `ls` contain the definitions `ds`, in order, and the lexemes `raw` outside
definitions. Lines are taken without blanks at their ends. -/
inductive Source : List (List Char) → List (String × MacroDef) → List Token → Prop
  | nil : Source [] [] []
  | define {l after : List Char} {ls : List (List Char)} {n : String} {m : MacroDef}
      {ds : List (String × MacroDef)} {raw : List Token} : Directive (trim l) after →
      Definition after n m → Source ls ds raw → Source (l :: ls) ((n, m) :: ds) raw
  | code {l : List Char} {ls : List (List Char)} {ts : List Token}
      {ds : List (String × MacroDef)} {raw : List Token} : (∀ after, ¬ Directive (trim l) after) →
      Lexed (trim l) ts → Source ls ds raw → Source (l :: ls) ds (ts ++ raw)

/-- The one macro every source has. -/
def builtin (name : String) : Option MacroDef :=
  if name = "RET_WORD" then
    some ⟨false, [], [⟨"PUSH0", .ident⟩, ⟨"MSTORE", .ident⟩, ⟨"PUSH1", .ident⟩,
      ⟨"0x20", .number 0x20#256⟩, ⟨"PUSH0", .ident⟩, ⟨"RETURN", .ident⟩]⟩
  else none

/-- The meaning of a name: its last definition in the source, else the builtin one. -/
def meaning (ds : List (String × MacroDef)) (name : String) : Option MacroDef :=
  match ds.reverse.find? (·.1 == name) with
  | some d => some d.2
  | none => builtin name

end Verif.Asm.Spec
