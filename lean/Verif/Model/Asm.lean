import Verif.Model.Parse
/-!
# The assembler

Models `parse_items` and `layout_and_emit` (`crates/revmc-codegen/src/bytecode/asm.rs`). The
tokenizer and the macro preprocessor are in `Verif.Model.AsmText`.
-/

namespace Verif.Asm

/-- The reasons for `eyre::bail!`; messages are not modelled. `fuel` stands for a layout loop that does
not stop. -/
inductive Err
  | emptyLabel | badOpcode | badIndex | missingImm | badImm | unexpectedImm | unexpectedToken
  | undefinedLabel | immTooLarge | fuel | badMacro | unreachable
deriving DecidableEq, Repr

/-- `TokenKind` (asm.rs:55-79). -/
inductive TokenKind
  | ident | label | labelRef | number (n : Word) | comma | lparen | rparen | paramRef | whitespace
  | comment | unknown
deriving DecidableEq, Repr

/-- `Token` (asm.rs:46-51). -/
structure Token where
  src : String
  kind : TokenKind
deriving DecidableEq, Repr

/-- `Imm` (asm.rs:454-459). -/
inductive Imm
  | number (n : Word)
  | label (name : String)
deriving DecidableEq, Repr

/-- `PushKind` (asm.rs:462-469). -/
inductive PushKind
  | none | fixed (size : Nat) | auto
deriving DecidableEq, Repr

/-- `Inst` (asm.rs:447-451). -/
structure Inst where
  opcode : UInt8
  imm : Option Imm
  kind : PushKind
deriving DecidableEq, Repr

/-- `Item` (asm.rs:439-444). -/
inductive Item
  | label (name : String)
  | inst (i : Inst)
deriving DecidableEq, Repr

/-! ## Parser -/

/-- `expect_number_u8` (asm.rs:579-594). -/
def expectNumberU8 : List Token → Except Err UInt8
  | [] => .error .missingImm
  | t :: _ =>
    match t.kind with
    | .number n => if n.toNat < 256 then .ok (UInt8.ofNat n.toNat) else .error .badImm
    | _ => .error .badImm

/-- `expect_imm` (asm.rs:597-609). -/
def expectImm : List Token → Except Err Imm
  | [] => .error .missingImm
  | t :: _ =>
    match t.kind with
    | .number n => .ok (.number n)
    | .labelRef => .ok (.label t.src)
    | _ => .error .badImm

/-- The one-byte immediate instructions (asm.rs:502-511, 519-528, 529-539). -/
def rawInst (opcode raw : UInt8) : Inst :=
  { opcode, imm := some (.number (BitVec.ofNat 256 raw.toNat)), kind := .fixed 1 }

/-- The `TokenKind::Ident` arm of `parse_items` (asm.rs:482-565): the instruction and how many of the
following tokens it takes. `names` is `OpCode::parse` (revm, external). -/
def parseInst (names : String → Option UInt8) (word : String) (ts : List Token) :
    Except Err (Inst × Nat) :=
  if word = "PUSH" then
    match expectImm ts with
    | .error e => .error e
    | .ok imm => .ok ({ opcode := 0, imm := some imm, kind := .auto }, 1)
  else if word = "DUP" ∨ word = "SWAP" then
    match expectNumberU8 ts with
    | .error e => .error e
    | .ok n =>
      if n < 1 then .error .badIndex
      else if n ≤ 16 then
        .ok ({ opcode := (if word = "SWAP" then op.SWAP1 else op.DUP1) + n - 1, imm := none,
               kind := .none }, 1)
      else
        match encodeSingle n with
        | none => .error .badIndex
        | some raw => .ok (rawInst (if word = "SWAP" then op.SWAPN else op.DUPN) raw, 1)
  else
    match names word with
    | none => .error .badOpcode
    | some opcode =>
      if opcode = op.DUPN ∨ opcode = op.SWAPN then
        match expectNumberU8 ts with
        | .error e => .error e
        | .ok n =>
          match encodeSingle n with
          | none => .error .badIndex
          | some raw => .ok (rawInst opcode raw, 1)
      else if opcode = op.EXCHANGE then
        match expectNumberU8 ts with
        | .error e => .error e
        | .ok n =>
          match expectNumberU8 (ts.drop 1) with
          | .error e => .error e
          | .ok m =>
            match encodePair n m with
            | none => .error .badIndex
            | some raw => .ok (rawInst opcode raw, 2)
      else if minImmLen opcode > 0 then
        match expectImm ts with
        | .error e => .error e
        | .ok imm => .ok ({ opcode, imm := some imm, kind := .fixed (minImmLen opcode) }, 1)
      else
        match ts with
        | { kind := .number _, .. } :: _ => .error .unexpectedImm
        | _ => .ok ({ opcode, imm := none, kind := .none }, 0)

/-- The loop of `parse_items` (asm.rs:472-576). The index `i` is the remaining list; `skip` counts
tokens already taken by the previous instruction. -/
def parseItemsFrom (names : String → Option UInt8) : Nat → List Token → Except Err (List Item)
  | _, [] => .ok []
  | skip + 1, _ :: ts => parseItemsFrom names skip ts
  | 0, t :: ts =>
    match t.kind with
    | .label =>
      if t.src = "" then .error .emptyLabel
      else
        match parseItemsFrom names 0 ts with
        | .error e => .error e
        | .ok items => .ok (.label t.src :: items)
    | .ident =>
      match parseInst names t.src ts with
      | .error e => .error e
      | .ok (i, k) =>
        match parseItemsFrom names k ts with
        | .error e => .error e
        | .ok items => .ok (.inst i :: items)
    | _ => .error .unexpectedToken

/-- `parse_items` (asm.rs:472-576). -/
def parseItems (names : String → Option UInt8) (ts : List Token) : Except Err (List Item) :=
  parseItemsFrom names 0 ts

/-! ## Layout and emission -/

/-- The `n` low bytes of `v`, most significant first (`to_be_bytes`, ruint). -/
def beBytes : Nat → Nat → List UInt8
  | 0, _ => []
  | n + 1, v => UInt8.ofNat (v / 256 ^ n) :: beBytes n v

/-- `U256::to_be_bytes_trimmed_vec` (ruint): without leading zero bytes. -/
def beTrimmed (v : Word) : List UInt8 := (beBytes 32 v.toNat).dropWhile (· == 0)

/-- `encode_imm` (asm.rs:618-636). -/
def encodeImm (num : Word) (size : Option Nat) : Except Err (List UInt8) :=
  let bytes := beTrimmed num
  match size with
  | none => .ok bytes
  | some size =>
    if bytes.length < size then .ok (List.replicate (size - bytes.length) 0 ++ bytes)
    else if bytes.length = size then .ok bytes
    else .error .immTooLarge

/-- `min_push_width` (asm.rs:639-646); `usize` is 64 bits. -/
def minPushWidth (val : Nat) : Nat :=
  let x := BitVec.ofNat 64 val
  if x = 0 then 0 else (64 - x.clz.toNat + 7) / 8

/-- Bytes taken by an item in the layout loop (asm.rs:688-713), with the current width of an automatic
label push. -/
def itemSize : Item → Nat → Nat
  | .label _, _ => 0
  | .inst i, w =>
    1 + match i.kind with
      | .none => 0
      | .fixed n => n
      | .auto =>
        match i.imm with
        | some (.label _) => w
        | some (.number n) => (beTrimmed n).length
        | none => 0

/-- One pass over the items (asm.rs:684-714): the label table; a second definition of the same name
overwrites the first (`HashMap::insert`), i.e. is found first here. `pc` does not wrap: the source
would not fit in memory. -/
def labelPcs : List (Item × Nat) → Nat → List (String × Nat) → List (String × Nat)
  | [], _, m => m
  | (.label name, _) :: r, pc, m => labelPcs r pc ((name, pc) :: m)
  | (.inst i, w) :: r, pc, m => labelPcs r (pc + itemSize (.inst i) w) m

/-- The items in `auto_label_indices` (asm.rs:655-662): automatic pushes of a label. -/
def autoName : Item → Option String
  | .inst { kind := .auto, imm := some (.label name), .. } => some name
  | _ => none

/-- The width update (asm.rs:716-729), for the items in order. -/
def growWidths (m : List (String × Nat)) : List (Item × Nat) → Except Err (List (Item × Nat) × Bool)
  | [] => .ok ([], false)
  | (it, w) :: r =>
    match autoName it with
    | some name =>
      match m.lookup name with
      | none => .error .undefinedLabel
      | some pc =>
        match growWidths m r with
        | .error e => .error e
        | .ok (r', c) =>
          if minPushWidth pc > w then .ok ((it, minPushWidth pc) :: r', true)
          else .ok ((it, w) :: r', c)
    | none =>
      match growWidths m r with
      | .error e => .error e
      | .ok (r', c) => .ok ((it, w) :: r', c)

/-- The layout loop (asm.rs:682-734). -/
def layoutLoop : Nat → List (Item × Nat) → Except Err (List (Item × Nat) × List (String × Nat))
  | 0, _ => .error .fuel
  | fuel + 1, ws =>
    let m := labelPcs ws 0 []
    match growWidths m ws with
    | .error e => .error e
    | .ok (ws', changed) => if changed then layoutLoop fuel ws' else .ok (ws, m)

/-- `resolve_imm` (asm.rs:769-777). -/
def resolveImm (m : List (String × Nat)) : Option Imm → Except Err Word
  | none => .error .unreachable
  | some (.number n) => .ok n
  | some (.label name) =>
    match m.lookup name with
    | none => .error .undefinedLabel
    | some pc => .ok (BitVec.ofNat 256 pc)

/-- The width of an automatic push (asm.rs:750-756). -/
def pushWidth (imm : Option Imm) (w : Nat) (v : Word) : Nat :=
  match imm with
  | some (.label _) => w
  | _ => (beTrimmed v).length

/-- One item of the final emission (asm.rs:737-763). -/
def emitItem (m : List (String × Nat)) : Item × Nat → Except Err (List UInt8)
  | (.label _, _) => .ok []
  | (.inst i, w) =>
    match i.kind with
    | .none => .ok [i.opcode]
    | .fixed size =>
      match resolveImm m i.imm with
      | .error e => .error e
      | .ok v =>
        match encodeImm v (some size) with
        | .error e => .error e
        | .ok bytes => .ok (i.opcode :: bytes)
    | .auto =>
      match resolveImm m i.imm with
      | .error e => .error e
      | .ok v =>
        let width := pushWidth i.imm w v
        if width > 0 then
          match encodeImm v (some width) with
          | .error e => .error e
          | .ok bytes => .ok ((op.PUSH0 + UInt8.ofNat width) :: bytes)
        else .ok [op.PUSH0 + UInt8.ofNat width]

/-- `emit_inst_no_labels` (asm.rs:780-804). -/
def emitNoLabel : Item → Except Err (List UInt8)
  | .label _ => .ok []
  | .inst i =>
    match i.kind with
    | .none => .ok [i.opcode]
    | .fixed size =>
      match i.imm with
      | some (.number n) =>
        match encodeImm n (some size) with
        | .error e => .error e
        | .ok bytes => .ok (i.opcode :: bytes)
      | _ => .error .unreachable
    | .auto =>
      match i.imm with
      | some (.number n) =>
        match encodeImm n none with
        | .error e => .error e
        | .ok bytes => .ok ((op.PUSH0 + UInt8.ofNat bytes.length) :: bytes)
      | _ => .error .unreachable

/-- Emission of all items in order, stopping at the first error. -/
def emitAll {α : Type} (f : α → Except Err (List UInt8)) : List α → Except Err (List UInt8)
  | [] => .ok []
  | a :: r =>
    match f a with
    | .error e => .error e
    | .ok c =>
      match emitAll f r with
      | .error e => .error e
      | .ok code => .ok (c ++ code)

/-- The scan for labels (asm.rs:650-665). -/
def hasLabel : Item → Bool
  | .label _ => true
  | .inst { imm := some (.label _), .. } => true
  | _ => false

/-- `layout_and_emit` (asm.rs:649-766). The Rust loop has no bound; `8 * items + 1` rounds are enough
(`C39_terminates`). -/
def layoutAndEmit (items : List Item) : Except Err (List UInt8) :=
  if items.any hasLabel then
    match layoutLoop (8 * items.length + 1) (items.map fun it => (it, 0)) with
    | .error e => .error e
    | .ok (ws, m) => emitAll (emitItem m) ws
  else emitAll emitNoLabel items

end Verif.Asm
