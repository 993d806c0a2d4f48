# Formal model of revmc: design

Target: paradigmxyz/revmc as found in /repo (read as text only; never built or run here).
Model and proofs: Lean 4.33.0 with selected Mathlib modules, in `lean/Verif`.

## Layout

* `Verif/Model/*.lean`: executable, total functions transcribed from the Rust code. Every
  definition cites the file and lines it models and lists its simplifications.
* `Verif/Spec/*.lean`: small specifications written from the EVM / API documentation,
  independent of the model's helper functions.
* `Verif/Lemmas/*.lean`: helper lemmas.
* `Verif/Props/*.lean`: the property theorems (`Cxx_...`), each with a concrete non-trivial
  `example` that meets its hypotheses.
* `properties.jsonl`: the properties in plain words. `MANIFEST.json`: theorem names and status per
  property. `seeded/LOG.jsonl`: the mutation tests (one line per seeded bug).

A theorem named `..._partial` proves part of its property; its comment says what is missing. A
theorem named `..._fails` proves that the full statement is false of the code, by a concrete
witness.

## Trusted base

* Lean's kernel (4.33.0) and the axioms `propext`, `Classical.choice`, `Quot.sound` only.
  No `sorry`, no `native_decide`, no `bv_decide`, no added axioms. `decide +kernel` is used on
  complete finite tables (e.g. 256 opcodes) and on the concrete witnesses and examples.
* The hand transcription from Rust to Lean. Each definition cites its lines so it can be
  compared by eye.
* Parts of dependencies whose source is not in /repo, written from their documentation: the opcode
  constants and stack effects of `revm_bytecode`, the signed-arithmetic helpers `i256` of
  `revm_interpreter`, `ruint`'s `add_mod`/`mul_mod`/`pow`, the gas helpers used by the builtins,
  `IndexSet`/`HashMap`/`DashMap` (association lists with atomic operations), `wincode` (a helper
  message arrives as it was sent).
* The specifications in `Verif/Spec`, in particular the EVM semantics of each pure opcode
  (`Spec/Arith`), the stack effect of an instruction (`Spec/AbsInt`) and executions of a program
  (`Spec/Flow`).

## What is modelled

| Model file | Code in /repo | Simplifications |
|---|---|---|
| `Opcode` | `bytecode/info.rs`, `bytecode/opcode.rs` (tables, EIP-8024 immediates, stack effects) | revm's gas table is a parameter |
| `Parse` | `bytecode/{mod,opcode,interner}.rs`: iterators, `new_mono`, `U256Imm`, instruction records | counters are naturals; code up to 2^31 bytes where handles matter |
| `U256`, `ConstFold` | `passes/const_fold.rs` and the 256-bit helpers it calls | |
| `Lower` | value expressions of `translate_inst`, `peephole.rs`, arithmetic builtins | an LLVM value is `Option Word`, `none` = poison |
| `Sections` | `passes/sections.rs` and the head checks in `translate/mod.rs` | |
| `AbsInt` | `passes/block_analysis.rs`: abstract values, joins, `interpret_block`, snapshots | sets ordered by value |
| `Flow`, `Program` | `mod.rs` dead-code marking and reachability; `block_analysis.rs`: blocks, edges, local pass, fixpoint, jump resolution, invalidation, commit | loops carry fuel proved sufficient |
| `Dedup` | `passes/dedup.rs`, redirects, `refresh_cfg` with redirects | groups in insertion order |
| `Dse` | `passes/dead_store_elim.rs`; which lowering each opcode gets | |
| `WholeGas` | the same with the gas counter: section heads charge static gas (`translate/mod.rs:569-604`, `sections.rs`), instructions charge the rest | metering on; memory expansion charged where it happens (no memory sections); dynamic costs are a parameter |
| `WholeMem` | the memory side of whole programs: memory-section results, `build_ensure_memory`, the cached base register, context cache, byte order (`translate/mod.rs:945-963, 1686-1753, 1938-1954`, `revmc-context/src/lib.rs:125-198`, builtins' `ensure_memory`) | operands come from the execution; what builtins write is a parameter; growing always succeeds |
| `Frames` | builtins that touch memory or data, calls and creations, nested frames (`revmc-builtins/src/lib.rs:177-363, 577-862`, `utils.rs:52-112`, `macros.rs`) | revm's `SharedMemory`, `resize_memory`, gas parameters and frame hand-over transcribed; no EIP-8037 state gas; host answers are inputs; what frames do between these instructions is any function of the answers |
| `Suspend` | suspension and resumption: suspend block, resume table and switch, copies between the function's and the caller's stack (`translate/mod.rs:218-229, 344-466, 1386-1500`, `bytecode/mod.rs:571-574`, context `lib.rs:30-60, 287-337`) | the callee's answer is the world's; the caller always pushes one word; buffers have no lower end |
| `Whole` | `analyze` (`bytecode/mod.rs`) and `translate` put together: compilation of all blocks, execution block by block | gas, deduplication and memory sections left out; a builtin is its answer from the world |
| `WholeDedup` | the same with `dedup_blocks` (`bytecode/mod.rs:421-460`) and `effective_entry`/`effective_next_entry` at every transfer (`translate/mod.rs:308-335, 472-558, 972-1057`) | as `Whole`, without leaving out deduplication |
| `WholeDedupGas` | `WholeGas` over the deduplicated program (`bytecode/mod.rs:433-460`, `translate/mod.rs:198-470`) | as `WholeGas` and `WholeDedup` |
| `VStack` | `translate/vstack.rs`, push/pop/dup/swap/materialise helpers of `translate/mod.rs` | generation and execution of straight-line code modelled together |
| `MemSections`, `MemJump` | `passes/memory_sections.rs`, bounds checks, memory address cache, dynamic jump table | |
| `Exit` | exits with `inspect_stack` | status code left out |
| `Builtins` | `revmc-builtins/src/lib.rs`: gas, static-call and data-access logic | host answers arbitrary |
| `Access` | `revmc-builtins`: balance, extcodesize, extcodehash, self_balance, difficulty, blob_hash, sload(_c), sstore, tload, tstore, selfdestruct, `load_account`; base gas by `make_map` | revm's journal, `GasParams` and static gas table transcribed; a self-destruct is recorded, not its transfer |
| `Asm`, `AsmText` | `bytecode/asm.rs`: tokenizer, macros, parser, layout, emission; `format_bytecode` | text is a list of characters; revm's opcode names are a parameter |
| `Backend` | `revmc-runtime` backend thread, worker counters, lookups, sweeps | instants are naturals, counters do not wrap, each handler is atomic |
| `Pause`, `Helper`, `HelperIo` | pause/resume, out-of-process settings, CPU limit, preload, request routing | time-outs are events |
| `Session` | a compiler and its JIT state (`revmc-codegen/src/compiler/mod.rs:85-141, 448-660`, `revmc-llvm/src/lib.rs:210-454, 613-622, 706-820, 913-1132`): modules, staged and committed functions, trackers, names, dylibs | code is a number, an address a fresh number; ORC is trusted to reject a module that defines a name again (and destroy it), to find names in their dylib and to unload exactly a tracker's symbols |
| `Workers` | `runtime/worker.rs:144-182, 352-355, 415-569`, `runtime/backend.rs:66-105`, dylib guards (`revmc-llvm/src/lib.rs:307-315, 350-396, 456-468, 780-820`): jobs, recycling, program handles, linking of helper objects | built on `Session`; a job and a drop are one step each |
| `Attrs` | `revmc-builtins/src/ir.rs:69-108, 121-322` (attributes of builtins), accesses of `revmc-builtins/src/lib.rs:77-896`, `utils.rs:53-112`, `macros.rs:1-62`, call sites in `translate/mod.rs:720-1161, 1367-1400, 1505-1590`, `peephole.rs:250-316` | a body is a tree of memory accesses, data-dependent branches are choices; context fields are one word; `noalias`, `nocapture`, `align`, `nosync`, `norecurse`, `nounwind` not expressed |
| `Tramp` | `revmc-context/src/arch/x86_64.rs:21-43, 54-69`, `arch/aarch64.rs:34-60, 73-91`, `arch/mod.rs:13-17` | the instructions of the two trampolines on registers (words as naturals) and byte-addressed little-endian memory; the compiled function is any relation respecting the calling convention (`X86Returned`, `X86Exits`); flags, upper halves of vector registers and the shadow stack not modelled |
| `EvmWord` | `revmc-context/src/lib.rs:391-822` | a word is its bytes in memory order, a `U256` four limbs in native order (ruint); both byte orders; a slot is initialised or not; `from_interpreter_stack`, which relies on the layout of `Vec`, not modelled |
| `CallIf` | `revmc-context/src/lib.rs:310-348`, `jit_evm.rs:133-144, 250-305, 327-346`, `revmc-builtins/src/lib.rs:618-630` | a compiled function is a tree of steps on the context; host, frame and revm's `process_next_action` are arbitrary functions; the inspector callback changes only the inspector (the source's own safety argument, jit_evm.rs:252-257) |
| `BuiltinSyms` | `revmc-llvm/src/lib.rs:209-344, 456-468, 705-735` | registration of builtins by concurrent threads: the locked part, the definition in LLVM and the lookup are one atomic step each; LLVM defines all symbols of a call or none; mangling injective |
| `Runner` | `revmc-statetest/src/runner.rs`, `compiled.rs` | what the EVM does with a test is an arbitrary function; counters, queue and flag are atomic; forks, block and transaction set-up, printing and the skip list are left out |
| `Blockchain` | `revmc-statetest/src/btest/{mod,pre_block,post_block}.rs` | transactions and system calls are arbitrary functions of block, hashes and accounts; revm's `balance_incr` transcribed; the database is a map of accounts; printing, block access lists, the list of skipped files and overflow of gas sums are left out |
| `Diff` | `revmc-statetest/src/diagnostic.rs`, `revmc-cli/src/cmd/statetest_diff.rs`, loading and sanity check of `revmc-cli/src/fixture.rs` | executions are arbitrary functions of test and backend state; strings are lists of characters; printing, traces, the parsing of fixtures and the panics of the compiler are left out |
| `ReadCode` | `revmc-cli/src/lib.rs`, hex helpers of `revmc-cli/src/fixture.rs` | UTF-8 decoding and the assembler are arbitrary functions; white space is ASCII; const-hex's `decode` is assumed to drop `0x` only; a sign or underscores in numbers, which the libraries allow, are refused |
| `StateRoot` | `revmc-statetest/src/merkle_trie.rs` | hashes are numbers; keccak, RLP, `HashBuilder` and alloy's storage trie are arbitrary functions of sorted leaves, in C75 injective (no collisions) |
| `BackendSnapshot` | `stats.rs` `snapshot`, the three loads for `pending_jobs` | each load sees one state of `Backend`; loads take effect in program order (they are relaxed in the code); unbounded counters |
| `RunCmd` | `revmc-cli/src/cmd/run.rs` from the compilation on, `shared_library_path` | paths are lists of components, `..` is not resolved; compiling and linking succeed; directories are writable |
| `RunBench` | end of `RunArgs::run`, `bench` (`run.rs:264-278, 356-368`) | executions are a list; no execution panics; times are nanoseconds |
| `Linker` | `revmc-codegen/src/linker.rs` | paths are strings; the process is not modelled, only its command line |
| `DotHtml` | escaping in `open_dot` (`run.rs:304-306`) | texts are lists of characters |
| `ObjCapture` | `ScopedObjCapture`, `obj_capture_transform` and `jit_function` in `revmc-llvm/src/lib.rs` | pointers are slot numbers, never reused; guards are dropped innermost first (they are local variables); compilation happens on the thread of the lookup (in-place dispatch, trusted) |
| `Builder` | `revmc-llvm/src/lib.rs` (constants, comparisons, immediates, checked arithmetic, switch) | LLVM's instructions on `iN` are taken to be those on bit vectors, `LLVMConstInt` and `LLVMConstIntOfString` are transcribed; branch weights, intrinsics and memory operations are left out |
| `Store` | `runtime/storage.rs` | file system = map from names to contents |
| `JitEvm` | `revm_evm.rs`, `revmc-context/src/jit_evm.rs`: choice of the engine per frame | engines abstract |

Not modelled: LLVM (code generation, optimisation, ORC beyond `Session`), `revm`'s interpreter, the operating system,
`unsafe` pointer code, lock and channel implementations (atomic steps), the rest of the CLI, IR printing (`fmt.rs`), the linker command line, perf/gdb registration.

## Per property

"Shape" says how it is proved: L = algebraic law for all inputs, I = invariant by induction
over operations, R = refinement of a spec, D = decision logic. "Neg" = the code as written
violates the full claim; a concrete witness is proved and a `_partial` theorem is kept.

| Id | What is modelled | Shape |
|----|------------------|-------|
| C01 | opcode iterator + `Bytecode::new_mono` loop; spec: EVM jump-destination scan | R, Neg (DUPN-family immediates in 0x60..0x7f) |
| C02 | same model; spec: relation "next instruction position" | I |
| C03 | immediate decoding + handle; spec: padded big-endian value | R |
| C04 | STOP padding | L |
| C05 | four EIP-8024 functions on `UInt8`-range naturals | L (complete finite domain, `decide`) |
| C06 | `U256Imm`/`Interner` | I |
| C07 | `make_map`, flag packing; revm table as parameter | L |
| C08 | `try_const_fold` on `BitVec 256`; spec on `Nat`/`Int` | L |
| C09 | peephole selection + rewritten expression; spec as C08 | L |
| C10 | emitted expressions with poison tracked as `Option`; spec as C08 | L |
| C11 | `const_fold_gas` + budget accounting over a sequence of attempts | I |
| C12 | `ConstSetInterner::join` on sorted lists | L, I |
| C13 | `BlockState::join` | L |
| C14 | `interpret_block`; concrete stack semantics | I |
| C15 | parse + control-flow passes over a small-step program semantics with arbitrary environment answers: dead-code marking, blocks, local pass, worklist fixpoint, discovered edges, suspect invalidation, commit | I, Neg (depth clamp) |
| C16 | same | I, Neg (depth clamp) |
| C17 | redirect maps, `compress_redirects`, the whole pass with `refresh_cfg` between rounds; `Lemmas/DedupInv` proves an invariant (`Steady`) kept by every round, `Lemmas/Steady*` that the control-flow analysis of any bytecode establishes it (`Shut`: closed under targets and fall-throughs, kept by dead-code marking and by committing jump resolutions) | I |
| C18 | `block_fingerprint`, merging, retargeting, one round and the pass as a whole (`Lemmas/DedupRound`: closed form of a round; `DedupSim`: counterparts composed over rounds) | L, R, Neg (fingerprint not injective) |
| C19 | liveness transfer, skip decision; compiled block vs. EVM | R, Neg (blocks entered with more than 64 words) |
| C20 | stack section summary | L |
| C21 | gas section summary | L, Neg (u32 saturation) |
| C22 | memory sections | I, Neg (LOG1..LOG4) |
| C23 | bounds-check arithmetic | L |
| C24 | virtual stack | R |
| C25 | dynamic jump lowering | L |
| C26 | runtime backend state machine + lookup | I, D |
| C27 | same, job accounting; worker queue counter | I |
| C28 | same | I, Neg (stale result after clear) |
| C29 | same, generations | I |
| C30 | statistics | I, Neg |
| C31 | hotness | I |
| C32 | sync notifiers | I, Neg |
| C33 | eviction sweep | L, I |
| C34 | pause/resume atomic steps | I, Neg (race) |
| C35 | artifact store; sequential map refinement; two-thread step model | R, Neg (races) |
| C36 | helper client: pending map + reader | I |
| C37 | settings encode/decode | L |
| C38 | JitEvm caches, frame histories | I, Neg (`revmc-context` JitEvm with a changing miss callback) |
| C39 | `layout_and_emit` fixpoint | R |
| C40 | `emit_inst_no_labels` + opcode iterator | R |
| C41 | CALL/CREATE gas arithmetic | L |
| C42 | builtin guard order + call tree | I |
| C43 | data builtins | L |
| C44 | exit lowering choice | D, Neg (constant RETURN) |
| C45 | CPU mask selection | L |
| C46 | preload loop | I |
| C47 | fork changes in JitEvm's decision cache | I |
| C48 | dead-store pass completes | I, Neg (u16 counters) |
| C49 | live pushes have recorded values | I, Neg (undecodable immediate) |
| C50 | as C15: recorded operands and outputs | I, Neg (depth clamp) |
| C51 | tokenizer; spec: relation of texts and lexemes | R |
| C52 | `#define` lines, macro expansion; spec: relations for definitions, argument lists, expansion | R |
| C53 | `format_bytecode` then `parse_asm` | R, Neg (EIP-8024 immediates) |
| C54 | `Whole`: all passes but deduplication and gas, blocks executed on the stack buffer, against `Spec/Whole` | simulation invariant over executions (I, R), progress for the converse, Neg (depth clamp) |
| C55 | `WholeGas` against `Spec/WholeGas` (an EVM that pays per instruction) | simulation invariant with exact counter (I, R), converse by progress, Neg (depth clamp) |
| C56 | `WholeMem` against `Spec/WholeMem` (an EVM with a growing byte array) | executions follow the memory analysis' graph (I), C22 at every instruction, register invariant (I, R), Neg (LOG1..LOG4 operands) |
| C57 | `Frames` against `Spec/Frames` (frames that own memory and data) | per-builtin refinement (R), induction over trees of frames with the invariant that the buffer below the checkpoint is kept (I) |
| C58 | `Suspend` (calls of the function, own stack memory, copies, resume table) against `Whole` and the EVM of `Spec/Whole` | simulation with the program of C54: sections with round trips collapsed (R), invariant over the steps of a frame (I), counting for the resume points |
| C59 | `Access` against `Spec/Access` (whole costs, accessed sets, no builtins or parameters) | refinement per instruction and, by induction, per run (R); requests by composing computations that ask once and ones that do not ask |
| C60 | `WholeDedup`: `Whole` with merged blocks and redirects at every transfer, against `Spec/Whole` in worlds that do not see the program counter (`Spec/WholeDedup`) | simulation by the program with all blocks, whose analysis results are carried over along the redirects (R), then C54's invariant, Neg (fingerprint clash) |
| C61 | `Session`: calls on a compiler against the history of calls and results (`Spec/Session`) | invariants by induction over all call sequences (I), liveness, Neg (retry after a failed link runs another contract, use of a destroyed module, co-committed functions) |
| C62 | `Workers`: steps of the process against the history of steps and results (`Spec/Workers`) | invariant by induction over all executions (I), Neg (recompiling a held contract, compiling after a failed link) |
| C63 | `Attrs`: attribute tables and access trees against the promises of the LLVM attributes (`Spec/Attrs`) | all runs of a tree enumerated, proved complete, checked over the complete finite table of builtins and call sites (R, D); Neg (`memory(argmem)` on readers of the host, `nofree` on memory growth, `writeonly` on the constant-key SLOAD) |
| C64 | `Tramp`: instruction-level model of the entry and exit trampolines against the two calling conventions (`Spec/Tramp`) | symbolic execution of the straight-line code from any state, loads after stores (R) |
| C65 | `EvmWord` against positional values and list stacks (`Spec/EvmWord`) | induction on byte strings (A), list lemmas (R) |
| C66 | `CallIf` against a relational semantics of compiled functions and a recording inspector (`Spec/CallIf`) | structural induction on the function (I), case analysis (D, R); Neg and partial for the reported destruction |
| C67 | `BuiltinSyms` against the list of requests (`Spec/BuiltinSyms`) | invariant over all interleavings (I): announced = defined + still to define, disjointly per thread; Neg with a four-step interleaving and partial for linking |
| C68 | `Runner` against what a passed test, file and run mean (`Spec/Runner`) | list induction and case analysis for tests and files (D); invariant over all interleavings and a decreasing measure for the threads (I) |
| C69 | `Blockchain` against a relational description of valid chains (`Spec/Blockchain`) | R by induction over blocks and transactions; Neg three times (refused transactions, rejected blocks, hashes) |
| C70 | `Builder` against integer arithmetic and comparison (`Spec/Builder`) | L at every width; hexadecimal text by induction over digits; switches by induction over targets |
| C71 | `WholeDedupGas` against `Spec/WholeGas` with costs that do not see the program counter (`Spec/WholeDedupGas`) | the sections of a kept block cost what those of the removed block would (the gas of a section is the sum over its instructions); then C60's simulation (R) and C55's invariant, Neg (fingerprint clash) |
| C72 | `Diff.compare`, `Diff.run` against agreement on the list of chosen tests (`Spec/Diff`) | the printed status is injective; the four loops are one loop over the chosen tests (induction), Neg (files that cannot be read or parsed are passed over) |
| C73 | `Diff.loadPending`, `loadLibrary`, `sanityCheck` against `Spec.Serves` | Inv over the accounts; cases, Neg (one symbol for all contracts; only success is compared) |
| C74 | `ReadCode` against digits, numbers and text relations (`Spec/ReadCode`) | induction on the text; Neg (`0X` code is refused, `x12` is read as bytes, recipient `0X` is a call of address zero) |
| C75 | `StateRoot` against lookups in the map of accounts (`Spec.SameState`) | lists in strict order are determined by their members; both directions; joined with C72 (`C75_compare`) and C68 (`C75_checked`) |
| C76 | `BackendSnapshot` over runs of `Backend`, against the jobs in flight in the trace | counters only grow along every run; upper and lower bound (`C76_snapshot_partial`), exact when nothing is dispatched or completed meanwhile (`C76_quiet`), witness against the full claim (`C76_snapshot_fails`) |
| C77 | `RunCmd` over all arguments and disks | same run in full (`C77_same_run`), later run without `-o` (`C77_later_run_partial`), libraries apart (`C77_apart`), catalogue benchmarks always written (`C77_writes_partial`); witnesses `C77_later_run_fails`, `C77_inline_fails`, and `C77_absolute_fails` for every absolute path |
| C78 | `RunBench` against counts in the list of executions | `C78_interpret`, `C78_enough` in full; `C78_jit_only_partial`, `C78_average_partial` with witnesses `C78_jit_only_fails`, `C78_average_fails` |
| C79 | `Linker` over all sequences of setter calls | induction on the calls; `C79_compiler`, `C79_arguments` |
| C80 | `DotHtml` against a reader of ECMAScript template literals (`cook`, trusted) | the three replacements are one pass; induction on the source; `C80_source_partial` without carriage returns, `C80_return_fails`, `C80_script_fails` |
| C81 | `ObjCapture` over all interleavings, against each thread alone (`view`) | refinement; invariant on guards, slots and pointers |

`Props/WholeTotal` shows that the whole compiler produces a program (C48, C49, C54, C60) when immediates decode and stack needs
fit 16 bits, in particular for all code of up to 10878 bytes before Amsterdam.

No property is left unexpressed (`not_applicable`).

## Findings: where the code does not do what the property says

Each has a machine-checked witness; the remaining part of the property is proved.

1. C15, C16, C50, C54, C55 (`C15_resolved_fails`, `C16_dead_fails`, `C50_constants_fails`,
   `C54_halts_fails`, `C55_halts_fails`): the abstract stack
   passed between blocks is cut to 64 entries, and a block that pops below it is taken for
   unreachable. A program that pushes 65 words, jumps, pops them and then reaches a shared block has
   that block's jump resolved to the other path's target only; the real target is dead code.
2. C18 (`C18_merge_fails`): the block fingerprint drops leading zero bytes of immediate handles and
   has no separators, so two different blocks can print alike and be merged.
   End to end (`C60_halts_fails`): a compiled contract returns `0x505080` where the EVM returns 1; it also leaves
   949 gas where the EVM leaves 958 (`C71_halts_fails`).
3. C19 (`C19_block_fails`): entered with more than 64 words, a block's second operand is not tracked
   and the first one's value is taken for it; a live SWAPN is skipped.
4. C22 (`C22_fails`): for LOG1..LOG4 the memory analysis reads offset and length from the wrong
   operands; a later store's bounds check is skipped and it writes out of bounds. C56
   (`C56_memory_fails`): for the same reason the generated code may keep the memory's address in a
   register across a LOG that moves the memory, and the next store goes to the old address.
5. C01 (`C01_jumpdests_fails`): from Amsterdam on, DUPN/SWAPN/EXCHANGE immediates in 0x60..0x7f are
   skipped by the parser but are PUSH opcodes for the EVM's jump-destination scan.
6. C05 (`C05_pair_complete_fails`): `encode_pair` rejects the 91 valid pairs with m >= 17.
7. C11 (`C11_budget_fails`): with the limit `u64::MAX` the saturating check accepts an evaluation that
   overflows the counter.
8. C21 (`C21_charge_exact_fails`): section gas saturates at `u32::MAX` under a custom gas schedule.
9. C28, C30, C32 (`..._fails`): a late result of an older generation removes the entry of the running
   compilation, is never subtracted from the pending count, and answers callers of the new one; an
   idle sweep drops blocked callers.
10. C34 (`C34_race_fails`, `C34_drop_fails`): overlapping pause and resume can leave the helper running
    with a pause outstanding; a full queue drops the command.
11. C35 (`C35_race_fails`, `C35_mix_fails`, `C35_failed_write_fails`): overlapping store calls on one key
    mix manifest and file; an overwrite that fails half-way loses the old artifact.
12. C38 (`C38_callback_fails`): the context crate's JitEvm asks its callback on every run, so a suspended
    frame can move from the interpreter to compiled code.
13. C44 (`C44_return_fails`, `C44_check_fails`): with stack inspection, a RETURN with constant operands
    leaves the caller's length stale; a check failing after a skipped store shows garbage.
14. C48 (`C48_completes_fails`): 10923 LOG4 instructions overflow a 16-bit counter in the dead-store pass.
15. C49 (`C49_known_fails`): `DUPN 0x60; PUSH0` makes code generation hit `unreachable!`.
16. C53 (`C53_roundtrip_fails`): the disassembler prints the raw immediate of DUPN/SWAPN/EXCHANGE, the
    assembler takes the operand for the stack index; `e6 80` comes back as `e6 ef` without an error.

17. C61 (`C61_pointer_fails`, `C61_safe_fails`): when a function's name is still loaded, `jit_function` fails
    with a duplicate definition after the module was replaced, but the staged table is kept; asked again
    it succeeds and returns the old function's address, that is, another contract's code, and freeing the
    function instead deletes it from a destroyed module. `C61_free_fails`: freeing one function unloads
    the others of its module, whose pointers were handed out.

18. C62 (`C62_compiles_fails`): in-process recompilation of a contract on the worker that compiled it fails
    with a duplicate symbol for as long as the evicted program is still held (the same was fixed for
    helper objects by giving each its own dylib). `C62_retries_fails`, `C62_reclaimed_fails`: a job that
    fails after its module was added leaves the code loaded and the name taken, so the contract does not
    compile on that worker again until its compiler is recycled.

19. C63 (`C63_argmem_fails`, `C63_nofree_fails`, `C63_writeonly_fails`): three declarations to LLVM are not
   true. Builtins with a read-only context (ORIGIN, CALLDATALOAD, TIMESTAMP, ...) are declared
   `memory(argmem)` although they read the host and the call data behind pointers stored in the context,
   which the comment next to the declaration (ir.rs:79-83) rules out; every builtin is declared `nofree`
   although growing the memory may give back the old buffer; the constant-key SLOAD declares its slot
   `writeonly` although it stores the key there and reads it back. No visible effect was found: nothing they
   read is written by compiled code between calls (`C63_argmem_partial`: such builtins write nothing
   elsewhere), the memory pointer is reloaded after growth, and the slot's old content does not matter
   (`C63_initialises`).

20. C66 (`C66_selfdestruct_fails`): the inspector is told of the last journal entry after a function ended by
   SELFDESTRUCT. If the host recorded nothing for the instruction, for instance because the contract names
   itself as beneficiary after Cancun, an earlier transfer, such as the value sent with the call, is reported
   as the destruction. `C66_selfdestruct_partial` is the case where the instruction's entry is last.

21. C67 (`C67_link_fails`): `define_builtins` puts names into the set of defined builtins under the lock and
   defines them after releasing it. A second thread that needs the same builtin finds it in the set, skips
   it, and its lookup fails with an unresolved symbol if the first thread has not reached LLVM yet; its
   contract is then not compiled. Possible when two workers do their first job at the same time.
   `C67_link_partial` excludes that window; `C67_whole` shows that keeping the lock would close it.

22. C69 (`C69_verdict_fails`, `C69_rejected_fails`, `C69_hashes_fails`): the blockchain-test runner only prints a
    warning when the EVM refuses a transaction of a valid block, or accepts one of a block that must be rejected
    (btest/mod.rs:801-802, 850-851); the gas check is then skipped and a test without post state passes. For a
    rejected block reward, withdrawals and system calls are made all the same (btest/mod.rs:654-660, 896-905). Such a block usually
    has no header; its hash, zero, is then recorded under the number of the block before it, and the next block
    is given no parent hash (btest/mod.rs:908, 923).

23. C72, C73 (`C72_all_files_fails`, `C73_library_fails`, `C73_sanity_fails`): `statetest-diff` ends with exit code 0
   when a file cannot be read or parsed (`statetest_diff.rs:62-75`), so a directory of broken fixtures passes.
   `load_from_library` puts the one symbol it looks up under the hash of every contract (`fixture.rs:210-217`), so in a
   benchmark with two contracts the second is run by the code of the first. `sanity_check` says "interpreter and JIT
   results differ" but only compares `is_success` (`fixture.rs:386-392`); wrong output or gas passes. That a wrong
   function is run follows in the model; no fixture was run.

24. C74 (`C74_upper_fails`, `C74_bytes_only_fails`, `C74_kind_fails`), minor: code that begins with `0X` is taken to be
   hex (`lib.rs:23`) but `hex::decode` only drops `0x`, so it is refused (assuming const-hex behaves so; its source is
   not at hand). In fixtures the zero put before an odd number of digits turns `x12` into `0x12`; a recipient `0X` is a
   call of address zero where `0x` is a creation.

25. C76 (`C76_snapshot_fails`), minor: `RuntimeStats::snapshot` loads the three counters one after the other
   (`stats.rs:138-141`), so when a job is dispatched and another one completes between the loads, `pending_jobs` is 0
   although a job was in flight all the time. Code that waits for zero pending jobs can stop too early. The number is
   never higher than at the first load, apart from the drift of C30, since `dispatched` is loaded first (in program
   order; the loads are relaxed).

26. C77 (`C77_later_run_fails`, `C77_inline_fails`, `C77_absolute_fails`), minor: `revmc run X --load -o d` looks in
   the temporary directory although `run X --aot -o d` wrote to `d` (`run.rs:233-239`). With `-o` the directory
   `d/X` is not created (`run.rs:202-203`), only the dump directory, whose name differs for files and inline code,
   so writing `a.o` fails. Without `-o` an absolute path replaces the temporary directory in the join
   (`run.rs:151`), and `create_dir_all` is asked to make a directory of the file itself. Read, not run.

27. C78 (`C78_jit_only_fails`, `C78_average_fails`), minor: `--jit-only` with the default of one iteration runs the
   interpreter too (`run.rs:266`). `bench` divides by `n_iters as u32` (`run.rs:367`): 2^32 iterations end in a panic
   after the measurement, more give a wrong average.

28. C80 (`C80_script_fails`, `C80_return_fails`), minor: the source is escaped for the template literal but not for
   the `script` element around it; `</script` in it would end the script. The sources that revmc writes hold
   mnemonics and hex, so this needs other input.

Seen while reading, weaker or outside the properties: the blockchain-test runner
executes with revm's interpreter only, never with compiled code, skips seven of the transition forks and runs the
other ones with one fork from the first block on; unused wrappers of `orc.rs` do not
match the C interface (`notify_resolved` passes pairs of name and flags where name, address and flags are
read; `delegate` and `get_requested_symbols` never release what they are given); a non-UTF-8 dump directory is altered on the way to
the helper (`C37_dump_dir_lossy`); duplicate labels are accepted silently by the assembler; explicit
compile requests bypass the cold-entry cap; a pause issued before the backend starts is skipped; `clear_*`
can block on a backend that was never started; other blanks than those of ASCII are accepted at the ends
of assembly lines but not inside them; BLOCKHASH for heights beyond 2^64 asks the host for the
saturated height; the x86_64 trampolines assume the System V convention but are compiled for every x86_64
target, including Windows, where `extern "C"` passes arguments in other registers; the
context's log callback is documented to run before the host gets the log (context lib.rs:108-109) but runs
after it (builtins lib.rs:623-625); the length of the interpreter's stack is reached through the
unspecified field order of `Vec` (context lib.rs:424-425), checked only in debug builds; `Linker::cflags` is
documented to set the flags but adds to them (`C79_not_replaced`); `run --interpret` compiles all the same.
