import Verif.Model.Opcode
/-!
# Declared attributes of the builtins, and what the builtins touch

Models `crates/revmc-builtins/src/ir.rs` (the attributes declared to LLVM for every builtin), the
memory accesses of the functions in `crates/revmc-builtins/src/lib.rs`, and the places in
`crates/revmc-codegen/src/compiler/translate/{mod,peephole}.rs` that call them.

A function body is a tree of accesses. Simplifications: values and addresses are not kept, so every
data-dependent `if` is a choice (`alt`) of which both sides may run; accesses to fields of
`EvmContext` are all recorded as word 0 of its pointer.
-/

namespace Verif.Attrs

/-- `Attribute` (crates/revmc-backend/src/traits.rs:120-160), those used by builtins. -/
inductive Attr
  | noReturn | cold | noFree | noRecurse | noSync | noUnwind | argMemOnly
  | noAlias | noCapture | noUndef | align (n : Nat) | dereferenceable (n : Nat)
  | readNone | readOnly | writeOnly | writable | initializes (n : Nat)
deriving DecidableEq, Repr

/-- `Builtin` (ir.rs:121-125, 273-322). -/
inductive Bi
  | panic | assertSpecId
  | div | sdiv | mod | smod | addmod | mulmod | exp | expGas | keccak256 | keccak256CC
  | balance | origin | callDataLoad | callDataLoadC | callDataCopy | codeCopy | gasPrice
  | extCodeSize | extCodeCopy | returnDataCopy | extCodeHash | blockHash | coinbase | timestamp
  | number | difficulty | gasLimit | chainId | selfBalance | basefee | blobHash | blobBaseFee
  | slotNum | mresize | sload | sloadC | sstore | tload | tstore | mcopy | log
  | create | call | doReturn | doReturnCC | selfDestruct
deriving DecidableEq, Repr

/-- `Builtin::ALL` (ir.rs:129). -/
def Bi.all : List Bi :=
  [.panic, .assertSpecId, .div, .sdiv, .mod, .smod, .addmod, .mulmod, .exp, .expGas, .keccak256,
   .keccak256CC, .balance, .origin, .callDataLoad, .callDataLoadC, .callDataCopy, .codeCopy,
   .gasPrice, .extCodeSize, .extCodeCopy, .returnDataCopy, .extCodeHash, .blockHash, .coinbase,
   .timestamp, .number, .difficulty, .gasLimit, .chainId, .selfBalance, .basefee, .blobHash,
   .blobBaseFee, .slotNum, .mresize, .sload, .sloadC, .sstore, .tload, .tstore, .mcopy, .log,
   .create, .call, .doReturn, .doReturnCC, .selfDestruct]

/-- The attribute expressions of the builtin table: none (`default`), `ecx`, `ecx_ro`, `sp`,
`sp_dyn` (ir.rs:177, 246-269). -/
inductive Kind | plain | ecx | ecxRo | sp | spDyn
deriving DecidableEq, Repr

/-- The parameter lists of the builtin table (ir.rs:273-322). -/
def Bi.params : Bi → List Kind
  | .panic => [.plain, .plain]
  | .assertSpecId => [.ecx, .plain]
  | .div | .sdiv | .mod | .smod | .addmod | .mulmod => [.sp]
  | .keccak256CC => [.ecx, .sp, .plain, .plain]
  | .origin | .callDataLoad | .gasPrice | .coinbase | .timestamp | .number | .difficulty
  | .gasLimit | .chainId | .basefee | .blobHash | .blobBaseFee | .slotNum => [.ecxRo, .sp]
  | .callDataLoadC => [.ecxRo, .sp, .plain]
  | .mresize => [.ecx, .plain]
  | .sloadC => [.ecx, .sp, .plain]
  | .log | .create | .call => [.ecx, .spDyn, .plain]
  | .doReturn => [.ecx, .sp, .plain]
  | .doReturnCC => [.ecx, .plain, .plain, .plain]
  | .exp | .expGas | .keccak256 | .balance | .callDataCopy | .codeCopy | .extCodeSize
  | .extCodeCopy | .returnDataCopy | .extCodeHash | .blockHash | .selfBalance | .sload | .sstore
  | .tload | .tstore | .mcopy | .selfDestruct => [.ecx, .sp]

/-- `Builtin::op` (ir.rs:184-211): the opcode whose stack effect describes `sp`. The constants
`_0_0`, `_0_1` and `_1_0` are STOP, PUSH0 and POP. `CREATE`, `CALL` for the last group are not used
by any attribute. -/
def Bi.op : Bi → UInt8
  | .panic | .assertSpecId | .mresize | .log | .doReturnCC => op.STOP
  | .expGas => op.POP
  | .keccak256CC | .callDataLoadC | .sloadC => op.PUSH0
  | .div => op.DIV | .sdiv => op.SDIV | .mod => op.MOD | .smod => op.SMOD
  | .addmod => op.ADDMOD | .mulmod => op.MULMOD | .exp => op.EXP | .keccak256 => op.KECCAK256
  | .balance => op.BALANCE | .origin => op.ORIGIN | .callDataLoad => op.CALLDATALOAD
  | .callDataCopy => op.CALLDATACOPY | .codeCopy => op.CODECOPY | .gasPrice => op.GASPRICE
  | .extCodeSize => op.EXTCODESIZE | .extCodeCopy => op.EXTCODECOPY
  | .returnDataCopy => op.RETURNDATACOPY | .extCodeHash => op.EXTCODEHASH
  | .blockHash => op.BLOCKHASH | .coinbase => op.COINBASE | .timestamp => op.TIMESTAMP
  | .number => op.NUMBER | .difficulty => op.DIFFICULTY | .gasLimit => op.GASLIMIT
  | .chainId => op.CHAINID | .selfBalance => op.SELFBALANCE | .basefee => op.BASEFEE
  | .blobHash => op.BLOBHASH | .blobBaseFee => op.BLOBBASEFEE | .slotNum => op.SLOTNUM
  | .sload => op.SLOAD | .sstore => op.SSTORE | .tload => op.TLOAD | .tstore => op.TSTORE
  | .mcopy => op.MCOPY | .create => op.CREATE | .call => op.CALL | .doReturn => op.RETURN
  | .selfDestruct => op.SELFDESTRUCT

/-- `size_of`/`align_of` of `EvmContext` and the alignment of `EvmWord` (ir.rs:79, 223-225, 246, 252). -/
structure Layout where
  ctxSize : Nat
  ctxAlign : Nat
  wordAlign : Nat
deriving DecidableEq, Repr

/-- `size_and_align_with` (ir.rs:227-237). -/
def sizeAndAlign (size : Option Nat) (align : Nat) : List Attr :=
  [.noAlias, .noCapture, .noUndef, .align align] ++
    (match size with | some s => [.dereferenceable s] | none => [])

/-- The access attributes of `sp` from the operand counts (ir.rs:261-270). -/
def spAccess (inputs outputs : Nat) : List Attr :=
  match inputs, outputs with
  | 0, 0 => [.readNone]
  | 0, o + 1 => [.writable, .writeOnly, .initializes (32 * (o + 1))]
  | _ + 1, 0 => [.readOnly]
  | _ + 1, _ + 1 => [.writable]

/-- The attributes of one parameter (ir.rs:177, 239-270). -/
def kindAttrs (L : Layout) (io : Nat × Nat) : Kind → List Attr
  | .plain => [.noUndef]
  | .ecx => sizeAndAlign (some L.ctxSize) L.ctxAlign ++ [.writable]
  | .ecxRo => sizeAndAlign (some L.ctxSize) L.ctxAlign ++ [.readOnly]
  | .sp => sizeAndAlign none L.wordAlign ++ [.dereferenceable (32 * max io.1 io.2)] ++
      spAccess io.1 io.2
  | .spDyn => sizeAndAlign none L.wordAlign ++ [.writable]

/-- `Builtin::param_attrs` (ir.rs:172-182). -/
def paramAttrs (L : Layout) (b : Bi) : List (List Attr) :=
  b.params.map (kindAttrs L (tableStackIo b.op))

/-- `Builtin::attrs` (ir.rs:164-170). -/
def Bi.attrs : Bi → List Attr
  | .panic => [.cold, .noReturn]
  | .doReturn | .doReturnCC | .selfDestruct => [.noReturn]
  | _ => []

/-- `writes_ecx` of `add_attrs` (ir.rs:84-89). -/
def writesEcx (L : Layout) (b : Bi) : Bool :=
  (paramAttrs L b).any fun p =>
    p.any (· == .writable) && p.any (· == .dereferenceable L.ctxSize)

/-- The function attributes set by `add_attrs` (ir.rs:69-95). -/
def fnAttrs (L : Layout) (b : Bi) : List Attr :=
  b.attrs ++ [.noFree, .noRecurse, .noSync, .noUnwind] ++
    (if writesEcx L b then [] else [.argMemOnly])

/-- One memory access of a builtin: word `w` directly behind parameter `p`; memory not reached
directly through a parameter (behind a pointer stored in the context, or global); giving back an
allocation that existed before the call. -/
inductive Acc
  | ptr (p w : Nat) (write : Bool)
  | far (write : Bool)
  | free
deriving DecidableEq, Repr

/-- How a builtin ends: it returns, it leaves the compiled function through `revmc_exit`
(lib.rs:77-82), or it aborts the process (a panic in an `extern "C"` function). -/
inductive Out | returned | left | aborted
deriving DecidableEq, Repr

/-- A function body. -/
inductive Body
  | done (o : Out)
  | act (a : Acc) (k : Body)
  | alt (l r : Body)

namespace Body

/-- The runs of a body (meaning of the trees). -/
inductive Runs : Body → List Acc → Out → Prop
  | done (o : Out) : Runs (.done o) [] o
  | act {a k t o} : Runs k t o → Runs (.act a k) (a :: t) o
  | left {l r t o} : Runs l t o → Runs (.alt l r) t o
  | right {l r t o} : Runs r t o → Runs (.alt l r) t o

/-- Read of a context field. -/
def cr (k : Body) : Body := .act (.ptr 0 0 false) k
/-- Write of a context field. -/
def cw (k : Body) : Body := .act (.ptr 0 0 true) k
/-- Read behind a pointer of the context. -/
def fr (k : Body) : Body := .act (.far false) k
/-- Write behind a pointer of the context. -/
def fw (k : Body) : Body := .act (.far true) k
/-- Read of stack word `w` behind parameter 1 (`to_u256`, `to_address`). -/
def rd (w : Nat) (k : Body) : Body := .act (.ptr 1 w false) k
/-- Write of stack word `w` behind parameter 1. -/
def wr (w : Nat) (k : Body) : Body := .act (.ptr 1 w true) k
/-- `Ok(())`. -/
def ok : Body := .done .returned

/-- `fail` (lib.rs:77-82) with `revmc_exit` reading the saved stack pointer. -/
def fail : Body := cw (cr (.done .left))

/-- `gas!` (macros.rs:1-9): the table of costs is behind a pointer, the counter is in the context. -/
def gas (k : Body) : Body := fr (cr (.alt fail (cw k)))
/-- `state_gas!` (macros.rs:11-19). -/
def stateGas (k : Body) : Body := fr (cr (.alt fail (cw k)))
/-- `ensure_non_staticcall!` (macros.rs:21-29). -/
def nonStatic (k : Body) : Body := cr (.alt fail k)
/-- `try_into_usize!` of an already read word (macros.rs:49-62). -/
def toUsize (k : Body) : Body := .alt fail k
/-- `?` and `ok_or_fatal()?` (utils.rs:30-51). -/
def try_ (k : Body) : Body := .alt fail k

/-- `EvmContext::refresh_memory_cache` (revmc-context lib.rs:195-199). -/
def refresh (k : Body) : Body := cr (fr (cw (cw k)))

/-- `ensure_memory` (utils.rs:84-95): growing the memory may move it, giving back the old buffer. -/
def ensureMemory (k : Body) : Body :=
  cr (fr (.alt fail (.alt (refresh k) (cw (.alt (fw (refresh k)) (.act .free (fw (refresh k))))))))

/-- `load_account` (utils.rs:53-68): the host may load the account into its journal. -/
def loadAccount (k : Body) : Body :=
  fr (cr (cr (fr (fw (try_ (.alt (gas k) k))))))

/-- `do_keccak256` (lib.rs:198-214) writing `w`. -/
def keccak (w : Nat) : Body :=
  .alt (wr w ok) (gas (toUsize (ensureMemory (cr (fr (wr w ok))))))

/-- `do_calldataload` (lib.rs:249-265) writing word 0. -/
def calldataload : Body := cr (fr (.alt (wr 0 ok) (cr (fr (wr 0 ok)))))

/-- `copy_operation` (utils.rs:97-112). -/
def copyOperation : Body :=
  rd 0 (toUsize (.alt ok (gas (rd 2 (toUsize (ensureMemory (rd 1 (cr (fr (fw ok))))))))))

/-- A getter: reads the context, asks the host, writes the slot (lib.rs:228-230 and others). -/
def getter : Body := cr (fr (wr 0 ok))

/-- Two operands, result over the last (lib.rs:126-145); the only parameter is the stack pointer. -/
def binary : Body := .act (.ptr 0 0 false) (.act (.ptr 0 1 false) (.act (.ptr 0 0 true) ok))
/-- Three operands, result over the last (lib.rs:148-155). -/
def ternary : Body :=
  .act (.ptr 0 2 false) (.act (.ptr 0 1 false) (.act (.ptr 0 0 false) (.act (.ptr 0 0 true) ok)))

/-- `__revmc_builtin_sload` (lib.rs:485-505). -/
def sload : Body :=
  cr (fr (rd 0 (cr (.alt
    (fr (cr (cr (fr (fw (try_ (.alt (gas (wr 0 ok)) (wr 0 ok))))))))
    (cr (fr (fw (try_ (wr 0 ok)))))))))

/-- The topic loop of `__revmc_builtin_log` (lib.rs:614-617): `sp.sub(i)` for `i` in `1..=n`, from the
pointer moved up by `n`. -/
def topics : Nat → Body → Body
  | 0, k => k
  | m + 1, k => rd m (topics m k)

/-- The tail of `__revmc_builtin_call` after the operands (lib.rs:756-823). -/
def callTail : Body :=
  let afterValue : Body :=
    cr (fr (fw (try_ (gas (stateGas (cr (fr (gas (cr (fr (cr (fw ok))))))))))))
  .alt afterValue (gas afterValue)

/-- The memory ranges of `__revmc_builtin_call` (lib.rs:734-754), the last four words. -/
def callRanges : Body :=
  let out : Body := rd 0 (toUsize (.alt callTail (rd 1 (toUsize (ensureMemory callTail)))))
  rd 2 (toUsize (.alt out (rd 3 (toUsize (ensureMemory (cr (fr out)))))))

end Body

open Body in
/-- The functions of lib.rs:111-896. `n` is the number of topics of `log` and the kind passed to
`create` (0 `CREATE`, 1 `CREATE2`) and `call` (0 `CALL`, 1 `CALLCODE`, 2 `DELEGATECALL`,
3 `STATICCALL`), and is ignored by the others. -/
def Bi.body (n : Nat) : Bi → Body
  -- lib.rs:112-115
  | .panic => .act (.ptr 0 0 false) (fw (.done .aborted))
  -- lib.rs:118-123
  | .assertSpecId => cr (.alt ok (fw (.done .aborted)))
  -- lib.rs:126-155
  | .div | .sdiv | .mod | .smod => binary
  | .addmod | .mulmod => ternary
  -- lib.rs:158-167
  | .exp => rd 0 (gas (rd 1 (wr 0 ok)))
  -- lib.rs:170-176
  | .expGas => rd 0 (gas ok)
  -- lib.rs:179-186
  | .keccak256 => rd 0 (toUsize (rd 1 (keccak 0)))
  -- lib.rs:189-196
  | .keccak256CC => keccak 0
  -- lib.rs:217-225
  | .balance => rd 0 (loadAccount (fr (wr 0 ok)))
  -- lib.rs:228-230, 302-304, 414-445, 458-460, 470-472, 480-482
  | .origin | .gasPrice | .coinbase | .timestamp | .number | .gasLimit | .chainId | .basefee
  | .blobBaseFee | .slotNum => getter
  | .difficulty => cr (.alt (cr (fr (.alt (wr 0 ok) (fw (.done .aborted))))) (cr (fr (wr 0 ok))))
  -- lib.rs:233-247
  | .callDataLoad => rd 0 calldataload
  | .callDataLoadC => calldataload
  -- lib.rs:268-290
  | .callDataCopy =>
      rd 0 (toUsize (.alt ok (gas (rd 2 (toUsize (ensureMemory (rd 1 (cr (fr (fw ok))))))))))
  -- lib.rs:293-299
  | .codeCopy => cr (fr copyOperation)
  -- lib.rs:307-315
  | .extCodeSize => rd 0 (loadAccount (fr (wr 0 ok)))
  -- lib.rs:318-339
  | .extCodeCopy =>
      let tail : Body := loadAccount (fr (rd 1 (cr (fr (fw ok)))))
      rd 3 (rd 0 (toUsize (gas (.alt tail (rd 2 (toUsize (ensureMemory tail)))))))
  -- lib.rs:342-363
  | .returnDataCopy =>
      rd 0 (toUsize (rd 1 (cr (.alt fail (gas (.alt ok
        (rd 2 (toUsize (ensureMemory (cr (fr (fw ok))))))))))))
  -- lib.rs:366-375
  | .extCodeHash => rd 0 (loadAccount (fr (wr 0 ok)))
  -- lib.rs:378-411
  | .blockHash =>
      rd 0 (cr (fr (.alt (wr 0 ok) (.alt (wr 0 ok)
        (.alt (cr (fr (fw (try_ (wr 0 ok))))) (wr 0 ok))))))
  -- lib.rs:448-455
  | .selfBalance => cr (cr (fr (fw (try_ (wr 0 ok)))))
  -- lib.rs:463-467
  | .blobHash => rd 0 (cr (fr (wr 0 ok)))
  -- lib.rs:475-477, 485-505
  | .mresize => ensureMemory ok
  | .sload => Body.sload
  -- lib.rs:508-516
  | .sloadC => wr 0 Body.sload
  -- lib.rs:519-559
  | .sstore =>
      let tail : Body :=
        gas (cr (fr (.alt (stateGas (fr (.alt (cw (cr (cw ok))) (cr (cw ok))))) (cr (cw ok)))))
      nonStatic (cr (fr (cr (.alt fail (gas (cr (.alt
        (fr (cr (rd 1 (rd 0 (cr (fr (fw (try_ tail))))))))
        (rd 1 (rd 0 (cr (fr (fw (try_ tail)))))))))))))
  -- lib.rs:562-564
  | .tload => cr (fr (rd 0 (cr (fr (wr 0 ok)))))
  -- lib.rs:567-575
  | .tstore => nonStatic (cr (fr (rd 1 (rd 0 (cr (fr (fw ok)))))))
  -- lib.rs:578-592
  | .mcopy =>
      rd 0 (toUsize (gas (.alt ok (rd 2 (toUsize (rd 1 (toUsize
        (ensureMemory (cr (fr (fw ok)))))))))))
  -- lib.rs:595-630
  | .log =>
      let tail : Body := topics n (cr (fr (cr (.alt (fr (fw (fw ok))) (fr (fw ok))))))
      nonStatic (rd n (toUsize (gas (.alt
        (rd (n + 1) (toUsize (ensureMemory (cr (fr tail))))) tail))))
  -- lib.rs:633-698
  | .create =>
      let top := if n = 0 then 3 else 4
      let salt (k : Body) : Body := if n = 0 then k else rd (top - 4) k
      let last : Body := cr (cr (.alt (fr (gas (cr (fr (rd (top - 1) (cr (cr (fw ok))))))))
        (gas (cr (fr (rd (top - 1) (cr (cr (fw ok)))))))))
      let tail : Body := gas (salt (cr (fr (.alt (stateGas last) last))))
      let code : Body := rd (top - 2) (toUsize (ensureMemory (cr (fr tail))))
      nonStatic (rd (top - 3) (toUsize (.alt
        (cr (.alt (cr (fr (.alt fail (gas code)))) code)) tail)))
  -- lib.rs:701-823
  | .call =>
      let top := if n ≤ 1 then 7 else 6
      rd (top - 1) (rd (top - 2) (if n ≤ 1
        then rd (top - 3) (if n = 0 then cr (.alt fail callRanges) else callRanges)
        else callRanges))
  -- lib.rs:826-843
  | .doReturn =>
      let tail : Body := cr (cr (fw fail))
      rd 0 (toUsize (.alt (rd 1 (toUsize (ensureMemory (cr (fr tail))))) tail))
  -- lib.rs:846-863
  | .doReturnCC =>
      let tail : Body := cr (cr (fw fail))
      .alt (ensureMemory (cr (fr tail))) tail
  -- lib.rs:866-896
  | .selfDestruct =>
      let refund : Body := .alt (fr (cr (cw fail))) fail
      nonStatic (fr (cr (cr (fr (rd 0 (cr (fr (fw (try_ (cr (gas (cr (fr
        (.alt (stateGas refund) refund))))))))))))))

/-- A call of a builtin by compiled code: the builtin, its kind argument, how far below the top of
the stack the stack pointer passed to it lies, and which words from there hold their operand
(were materialised or written as constants). -/
structure Site where
  builtin : Bi
  arg : Nat
  depth : Nat
  ready : List Nat
deriving DecidableEq, Repr

/-- A call through `sp_after_inputs` (translate/mod.rs:1525-1535): the pointer is below all operands and
all of them are written to memory. -/
def afterInputs (o : UInt8) (b : Bi) (arg : Nat := 0) : UInt8 × Site :=
  let i := (computeStackIo o none).1
  (o, ⟨b, arg, i, List.range i⟩)

/-- A call through `sp_at_top` (translate/mod.rs:1509-1511). -/
def atTop (o : UInt8) (b : Bi) : UInt8 × Site := (o, ⟨b, 0, 0, []⟩)

/-- A call through `sp_after_inputs_with` (translate/mod.rs:1540-1550): only the named depths are
written to memory. -/
def afterInputsWith (o : UInt8) (b : Bi) (depths : List Nat) : UInt8 × Site :=
  let i := (computeStackIo o none).1
  (o, ⟨b, 0, i, depths.map fun d => i - 1 - d⟩)

/-- The calls with a stack pointer made for each opcode: translate/mod.rs:720-748, 822-940, 963-971,
1082-1093, 1116-1161, 1367-1400, peephole.rs:250-253 (gas of `EXP`), 280-302 (constant `SLOAD` and
`CALLDATALOAD`), 306-316 (constant `KECCAK256`). -/
def siteTable : List (UInt8 × Site) :=
  [afterInputs op.DIV .div, afterInputs op.SDIV .sdiv, afterInputs op.MOD .mod,
   afterInputs op.SMOD .smod, afterInputs op.ADDMOD .addmod, afterInputs op.MULMOD .mulmod,
   afterInputs op.EXP .exp, afterInputsWith op.EXP .expGas [1],
   afterInputs op.KECCAK256 .keccak256, afterInputsWith op.KECCAK256 .keccak256CC [],
   afterInputs op.BALANCE .balance, atTop op.ORIGIN .origin,
   afterInputs op.CALLDATALOAD .callDataLoad, (op.CALLDATALOAD, ⟨.callDataLoadC, 0, 1, []⟩),
   afterInputs op.CALLDATACOPY .callDataCopy, afterInputs op.CODECOPY .codeCopy,
   afterInputs op.GASPRICE .gasPrice, afterInputs op.EXTCODESIZE .extCodeSize,
   afterInputs op.EXTCODECOPY .extCodeCopy, afterInputs op.RETURNDATACOPY .returnDataCopy,
   afterInputs op.EXTCODEHASH .extCodeHash, afterInputs op.BLOCKHASH .blockHash,
   atTop op.COINBASE .coinbase, atTop op.TIMESTAMP .timestamp, atTop op.NUMBER .number,
   atTop op.DIFFICULTY .difficulty, atTop op.GASLIMIT .gasLimit, atTop op.CHAINID .chainId,
   atTop op.SELFBALANCE .selfBalance, atTop op.BASEFEE .basefee,
   afterInputs op.BLOBHASH .blobHash, atTop op.BLOBBASEFEE .blobBaseFee, atTop op.SLOTNUM .slotNum,
   afterInputs op.SLOAD .sload, (op.SLOAD, ⟨.sloadC, 0, 1, []⟩), afterInputs op.SSTORE .sstore,
   afterInputs op.TLOAD .tload, afterInputs op.TSTORE .tstore, afterInputs op.MCOPY .mcopy,
   afterInputs op.LOG0 .log 0, afterInputs op.LOG1 .log 1, afterInputs op.LOG2 .log 2,
   afterInputs op.LOG3 .log 3, afterInputs op.LOG4 .log 4,
   afterInputs op.CREATE .create 0, afterInputs op.CREATE2 .create 1,
   afterInputs op.CALL .call 0, afterInputs op.CALLCODE .call 1,
   afterInputs op.DELEGATECALL .call 2, afterInputs op.STATICCALL .call 3,
   afterInputs op.RETURN .doReturn, afterInputs op.REVERT .doReturn,
   afterInputs op.SELFDESTRUCT .selfDestruct]

end Verif.Attrs
