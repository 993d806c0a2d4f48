{"id": "C01", "title": "Compiled code accepts exactly the EVM's valid jump destinations", "statement": "For every bytecode and every program counter, the compiler regards the counter as a valid jump destination if and only if the EVM's own jump-destination scan (which skips PUSH data and nothing else) marks it: a 0x5b byte that is not inside the immediate of a PUSH.", "quantifier": "all byte sequences, all hard forks, all program counters", "why_tests_cant": "The set of byte strings is infinite and the interesting cases are rare alignments of immediates, truncations and gated opcodes; sampling cannot cover all alignments.", "anchors": ["crates/revmc-codegen/src/bytecode/mod.rs: Bytecode::new_mono, Bytecode::is_valid_jump", "crates/revmc-codegen/src/bytecode/opcode.rs: OpcodesIter::next, OpcodesIterWithPc::rewind"]}
{"id": "C02", "title": "Parsing tiles the bytecode exactly", "statement": "Parsing any bytecode yields instructions whose program counters start at 0 and increase strictly; each instruction's opcode is the byte at its counter; the next instruction starts right after its immediate bytes (or on the immediate itself when a DUPN/SWAPN/EXCHANGE immediate is 0x5b); no byte outside an immediate is skipped; and the counter-to-instruction map is the exact inverse of the instruction-to-counter map.", "quantifier": "all byte sequences and all hard forks", "why_tests_cant": "Off-by-one and truncation errors appear only at particular lengths/alignments; the claim ranges over unboundedly many strings.", "anchors": ["crates/revmc-codegen/src/bytecode/mod.rs: Bytecode::new_mono, Bytecode::pc, Bytecode::pc_to_inst", "crates/revmc-codegen/src/bytecode/opcode.rs: OpcodesIter::next, OpcodesIterWithPc::next, min_imm_len"]}
{"id": "C03", "title": "PUSH pushes the right-zero-padded big-endian immediate", "statement": "The constant attached to a PUSHn is the big-endian value of the n bytes after it, where bytes beyond the end of the code count as zero (so a truncated PUSH is padded on the right).", "quantifier": "all byte sequences, all positions, all push widths", "why_tests_cant": "Truncation combined with every width and every content is an unbounded space.", "anchors": ["crates/revmc-codegen/src/bytecode/mod.rs: Bytecode::new_mono (immediate decoding), U256Imm::new, U256Imm::get", "crates/revmc-codegen/src/bytecode/mod.rs: Bytecode::get_imm"]}
{"id": "C04", "title": "Running off the end of the code is STOP", "statement": "For every bytecode (including the empty one) the instruction list is non-empty and its last instruction cannot fall through; when the last real instruction can fall through, exactly one STOP is appended and nothing else changes.", "quantifier": "all byte sequences and all hard forks", "why_tests_cant": "Must hold for every possible final instruction and truncation.", "anchors": ["crates/revmc-codegen/src/bytecode/mod.rs: Bytecode::new_mono (STOP padding), InstData::can_fall_through"]}
{"id": "C05", "title": "DUPN/SWAPN/EXCHANGE immediates round-trip", "statement": "encode_single/decode_single are mutually inverse between stack indices 17..=235 and the immediate bytes outside 0x5b..=0x7f; encode_pair/decode_pair are mutually inverse between the pairs (n,m) with 1<=n<m<=29 and n+m<=30 and their bytes; every other index/pair/byte is rejected, and no valid immediate is a JUMPDEST or PUSH byte.", "quantifier": "all 256 bytes, all 65536 index pairs", "why_tests_cant": "It is a complete-domain claim tying four functions together, including rejection and the stated ranges.", "anchors": ["crates/revmc-codegen/src/bytecode/opcode.rs: decode_single, encode_single, decode_pair, encode_pair, compute_stack_io"]}
{"id": "C06", "title": "Constant handles never change meaning", "statement": "A handle obtained for a 256-bit value always reads back that value, no matter how many other constants are added later; two handles are equal exactly when their values are equal.", "quantifier": "all sequences of constant insertions", "why_tests_cant": "History property over arbitrary insertion sequences, with the tag-bit boundary at 2^31.", "anchors": ["crates/revmc-codegen/src/bytecode/mod.rs: U256Imm::new, U256Imm::get, U256Imm::get_inline", "crates/revmc-codegen/src/bytecode/interner.rs: Interner::intern, Interner::get"]}
{"id": "C07", "title": "Hard-fork gating of opcodes is exact and monotone", "statement": "For every hard fork, a defined opcode is reported disabled iff the fork precedes the one that introduced it; once enabled it stays enabled in later forks; undefined opcodes are unknown in all forks; the reported base gas is the interpreter's static gas (or 0 for the opcodes that are charged entirely at run time) and is never disturbed by the flag bits.", "quantifier": "all hard forks, all 256 opcodes, all interpreter gas tables", "why_tests_cant": "The interpreter gas table is a parameter; flag packing must not clobber any 16-bit gas value.", "anchors": ["crates/revmc-codegen/src/bytecode/info.rs: make_map, OpcodeInfo, SPEC_GATED_OPCODES, FULLY_DYNAMIC, DYNAMIC_WITH_BASE_GAS"]}
{"id": "C08", "title": "Compile-time evaluation agrees with EVM arithmetic", "statement": "Whenever the compiler replaces an instruction with known operands by a constant, the constant is the value the EVM defines for that opcode on those operands (wrapping add/sub/mul, zero-divisor cases, signed division and remainder including MIN/-1, addmod/mulmod with unbounded intermediates, exponentiation mod 2^256, sign extension, byte, shifts >= 256, CLZ, comparisons).", "quantifier": "all 256-bit operand values for each foldable opcode", "why_tests_cant": "2^256..2^768 operand combinations per opcode.", "anchors": ["crates/revmc-codegen/src/bytecode/passes/const_fold.rs: try_const_fold"]}
{"id": "C09", "title": "Constant-operand rewrites preserve the result", "statement": "Each special-case lowering selected when some operands are known (division and remainder by 0/1/-1/powers of two/MIN, 0 divided by x, addmod/mulmod with small moduli, EXP with special bases and exponents, SIGNEXTEND >= 31, BYTE >= 32) produces the same value as the EVM operation for every value of the remaining operand(s), and is only selected under its guard.", "quantifier": "all values of constant and non-constant operands", "why_tests_cant": "Rewrites are selected on sparse special constants and must hold for all 2^256 values of the other operand.", "anchors": ["crates/revmc-codegen/src/compiler/translate/peephole.rs: peephole_div, peephole_sdiv, peephole_mod, peephole_smod, peephole_addmod, peephole_mulmod, peephole_exp, peephole_signextend, peephole_byte"]}
{"id": "C10", "title": "Inline lowerings of SIGNEXTEND, BYTE, shifts and comparisons equal the EVM definition", "statement": "The branch-free instruction sequences emitted for SIGNEXTEND, BYTE, SHL, SHR, SAR, CLZ, ISZERO, LT/GT/SLT/SGT/EQ compute the EVM-defined result for all operand values, and none of the shift amounts that the sequences actually use is out of range (so no poison value can reach the result).", "quantifier": "all pairs of 256-bit operands", "why_tests_cant": "2^512 operand pairs; boundary at index 31/32 and shift 255/256.", "anchors": ["crates/revmc-codegen/src/compiler/translate/mod.rs: FunctionCx::translate_inst (SIGNEXTEND, BYTE, SHL, SHR, SAR, CLZ arms)"]}
{"id": "C11", "title": "Compile-time evaluation is bounded by the gas budget", "statement": "For every bytecode analysis run, the total EVM gas of all compile-time evaluations actually performed never exceeds the configured limit; with limit 0 nothing with a positive cost is evaluated; and an evaluation that would exceed the limit is skipped, leaving the value unknown.", "quantifier": "all sequences of evaluation attempts and all limits up to u64::MAX", "why_tests_cant": "History property over arbitrarily long sequences incl. counter saturation.", "anchors": ["crates/revmc-codegen/src/bytecode/passes/const_fold.rs: const_fold_gas, try_const_fold", "crates/revmc-codegen/src/bytecode/passes/block_analysis.rs: interpret_block (gas accounting)"]}
{"id": "C12", "title": "Joining sets of known constants loses no value", "statement": "Joining two abstract values yields an abstract value that admits every concrete value admitted by either; when the result is a constant set it admits nothing else; join is idempotent, and repeated joining can only grow, reaching 'unknown' after boundedly many changes.", "quantifier": "all abstract values and all join histories", "why_tests_cant": "Sets of arbitrary content and order; the growth bound is a statement about all chains.", "anchors": ["crates/revmc-codegen/src/bytecode/passes/block_analysis.rs: AbsValue, ConstSetInterner::join, ConstSetInterner::intern"]}
{"id": "C13", "title": "Joining block-entry states is sound for every stack height", "statement": "When control-flow paths meet, the merged abstract entry stack admits (aligned at the top) every concrete stack admitted by any of the incoming states, even with different heights and after truncation to the tracked depth.", "quantifier": "all abstract entry states, all concrete stacks, all join sequences", "why_tests_cant": "Arbitrary heights and join orders.", "anchors": ["crates/revmc-codegen/src/bytecode/passes/block_analysis.rs: BlockState::join, BlockState::clamp, MAX_ABS_STACK_DEPTH"]}
{"id": "C14", "title": "Recorded constant operands are the values seen at run time", "statement": "For straight-line code, if the entry abstract stack admits the concrete entry stack, then after each instruction the abstract stack admits the concrete one, and every operand or output recorded as a constant equals the concrete operand or output at that instruction in that execution.", "quantifier": "all instruction sequences, all entry stacks, all environment answers", "why_tests_cant": "Induction over unboundedly long instruction sequences with arbitrary non-constant inputs.", "anchors": ["crates/revmc-codegen/src/bytecode/passes/block_analysis.rs: Bytecode::interpret_block, Snapshots", "crates/revmc-codegen/src/bytecode/mod.rs: Bytecode::const_operand, Bytecode::const_output"]}
{"id": "C15", "title": "A statically resolved jump only ever goes where it was resolved", "statement": "If the analysis resolves a JUMP/JUMPI to one target or a set of targets, then in every execution of the program the value on the stack at that jump is the counter of one of these targets; if it marks the jump invalid, the value is never a valid destination.", "quantifier": "all programs, all executions (all call data, storage, host answers)", "why_tests_cant": "Quantifies over all programs and all their (infinite) execution paths, including loops.", "anchors": ["crates/revmc-codegen/src/bytecode/passes/block_analysis.rs: run_abstract_interp, run_fixpoint, resolve_jump, discover_jump_edges, invalidate_suspect_jumps, commit_resolved_jumps"]}
{"id": "C16", "title": "Instructions marked dead are never executed", "statement": "In every execution of the program, from every possible jump, no instruction marked as dead code is ever reached.", "quantifier": "all programs, all executions", "why_tests_cant": "Needs an argument over all paths, with dynamic jumps able to reach any destination.", "anchors": ["crates/revmc-codegen/src/bytecode/mod.rs: mark_dead_code, mark_dead_code_once, recompute_reachable_jumpdests, recompute_has_dynamic_jumps"]}
{"id": "C17", "title": "Block redirects always lead to a live final block", "statement": "After merging blocks in any number of rounds, following redirects from any instruction terminates, needs at most one step after compression, ends in an instruction that is not itself redirected, and compression does not change where any redirect chain ends.", "quantifier": "all redirect maps built by any number of merge rounds", "why_tests_cant": "Chains of arbitrary length and sharing; cycle freedom is an invariant over rounds.", "anchors": ["crates/revmc-codegen/src/bytecode/passes/block_analysis.rs: compress_redirects", "crates/revmc-codegen/src/bytecode/passes/dedup.rs: dedup_blocks, dedup_blocks_once", "crates/revmc-codegen/src/bytecode/mod.rs: recompute_reachable_jumpdests", "crates/revmc-codegen/src/compiler/translate/mod.rs: effective_inst"]}
{"id": "C18", "title": "Merged duplicate blocks behave identically", "statement": "Two blocks that are merged into one execute the same opcodes with the same immediate values in the same order and continue to the same successors, so replacing one by the other changes no observable result.", "quantifier": "all programs and all pairs of blocks merged by the deduplication pass", "why_tests_cant": "Collision freedom of the block key is a claim over all pairs of blocks; random blocks do not collide.", "anchors": ["crates/revmc-codegen/src/bytecode/passes/dedup.rs: dedup_blocks_once, block_fingerprint"]}
{"id": "C19", "title": "Dead-store elimination changes no observable stack value", "statement": "Skipping every instruction the pass marks as skippable leaves, for every entry stack, the same values in every stack slot that a later executed instruction reads or that is observable at the block end, the same stack height, and the same control flow and side effects.", "quantifier": "all blocks, all entry stacks, all environment answers", "why_tests_cant": "Liveness must be right for every combination of DUP/SWAP/EXCHANGE depth and consumer.", "anchors": ["crates/revmc-codegen/src/bytecode/passes/dead_store_elim.rs: dead_store_elim, transfer_liveness, transfer_swap, transfer_dup, generic_transfer, all_outputs_dead, can_skip_when_dead"]}
{"id": "C20", "title": "One stack check per section is equivalent to a check per instruction", "statement": "For every section and every stack height 0..=1024 at its start, the single check emitted at the section head fails iff checking each instruction separately (as the interpreter does) would report an underflow or overflow somewhere in the section; arithmetic saturation in the section summary never changes the verdict.", "quantifier": "all instruction sequences, all entry heights", "why_tests_cant": "Unbounded section lengths incl. ones saturating 16-bit counters.", "anchors": ["crates/revmc-codegen/src/bytecode/passes/sections.rs: StackSectionAnalysis::process, StackSectionAnalysis::section, SectionsAnalysis::process", "crates/revmc-codegen/src/compiler/translate/mod.rs: check_stack_bounds"]}
{"id": "C21", "title": "Section gas equals the sum of the instructions' static gas", "statement": "The gas charged at a section head is the sum of the static gas of the instructions in the section; each live instruction's static gas is charged in exactly one section; the up-front charge reports out-of-gas iff charging the instructions one at a time would, and otherwise leaves the same remaining gas at the section end.", "quantifier": "all instruction sequences and all gas limits", "why_tests_cant": "Unbounded lengths; 32-bit saturation of the section cost is only reachable with >65k instructions.", "anchors": ["crates/revmc-codegen/src/bytecode/passes/sections.rs: GasSectionAnalysis, SectionsAnalysis::process", "crates/revmc-codegen/src/compiler/translate/mod.rs: gas_cost_imm, gas_cost"]}
{"id": "C22", "title": "Skipped and merged memory-expansion checks never miss an expansion", "statement": "At every memory instruction, in every execution, the memory size the compiler claims as already guaranteed is at most the actual memory size, so a skipped expansion check is a no-op in the interpreter as well, and a direct resize goes to exactly the size the interpreter would have.", "quantifier": "all programs, all executions, all memory sizes at entry", "why_tests_cant": "Data-flow fixpoint over all paths; loops and joins.", "anchors": ["crates/revmc-codegen/src/bytecode/passes/memory_sections.rs: MemorySectionAnalysis, join_state, save_sections, round_memory_size", "crates/revmc-codegen/src/compiler/translate/mod.rs: build_ensure_memory, can_skip_ensure_memory"]}
{"id": "C23", "title": "Memory bounds arithmetic cannot wrap", "statement": "For every 256-bit offset and constant access size, the 64-bit end-of-access computation used by the emitted bounds check takes the fast path only if offset+size (as unbounded integers) lies within current memory, and otherwise requests a resize that either covers offset+size exactly or is so large that it must run out of gas.", "quantifier": "all 2^256 offsets, all access sizes, all current memory lengths below 2^63", "why_tests_cant": "Wrap-around only occurs at extreme offsets; the domain is 2^256.", "anchors": ["crates/revmc-codegen/src/compiler/translate/mod.rs: build_ensure_memory, u256_to_u64_saturating"]}
{"id": "C24", "title": "Deferring stack writes is unobservable", "statement": "Running any sequence of pushes, pops, DUPs, SWAPs and EXCHANGEs through the compiler's deferred (register-held) stack, with materialisation at arbitrary moments, yields the same value at each stack position as writing every value to the stack buffer immediately; after a full materialisation the buffer itself holds exactly the live stack.", "quantifier": "all operation sequences, all initial stacks, all materialisation points", "why_tests_cant": "Refinement over arbitrarily long histories of mixed operations.", "anchors": ["crates/revmc-codegen/src/compiler/translate/vstack.rs: VStack", "crates/revmc-codegen/src/compiler/translate/mod.rs: push, pop, dup, swap, exchange, materialize_range, materialize_live_stack, stack_value_at_depth"]}
{"id": "C25", "title": "A dynamic jump goes to the instruction at that counter or fails", "statement": "For every 256-bit jump operand, the dynamic jump lowering transfers control to the JUMPDEST whose program counter equals the operand if that is a live valid destination, and otherwise reports an invalid jump; in particular no operand >= 2^64 aliases a small counter.", "quantifier": "all 256-bit operands and all sets of destinations", "why_tests_cant": "2^256 operands; aliasing only for huge values.", "anchors": ["crates/revmc-codegen/src/compiler/translate/mod.rs: translate (dynamic jump table), translate_inst (JUMP/JUMPI), u256_to_u64_saturating"]}
{"id": "C26", "title": "A lookup returns only code compiled for that hash and fork, under the stated conditions", "statement": "lookup() answers 'interpret: disabled' when the backend is disabled, 'ineligible' for empty or oversized code, returns a compiled program only if one is resident under the requested (code hash, fork) and that program was built for exactly this key, and otherwise 'not ready'.", "quantifier": "all request histories, all configurations, all backend histories (compile results, clears, evictions, preloads)", "why_tests_cant": "History property over all interleavings of backend commands and worker results.", "anchors": ["crates/revmc-runtime/src/runtime/mod.rs: JitBackend::lookup, get_compiled", "crates/revmc-runtime/src/runtime/config.rs: RuntimeTuning::should_compile", "crates/revmc-runtime/src/runtime/backend.rs: insert_resident, handle_worker_result"]}
{"id": "C27", "title": "In-flight compilations are bounded", "statement": "At all times the number of dispatched jobs whose result has not been processed is exactly the backend's pending counter and at most the configured maximum, and the worker queue never holds more jobs than its capacity, for every interleaving of requests, clears, sweeps and worker completions.", "quantifier": "all command/result interleavings, all limits", "why_tests_cant": "Needs all schedules; counters are updated in several places.", "anchors": ["crates/revmc-runtime/src/runtime/backend.rs: try_admit, handle_worker_result, handle_clear_resident", "crates/revmc-runtime/src/runtime/worker.rs: WorkerPool::try_send"]}
{"id": "C28", "title": "One compilation in flight per contract", "statement": "Between two clears, no second compilation of the same (code hash, fork) is dispatched while one is in flight; later requests wait for the running one.", "quantifier": "all command/result interleavings including clears and evictions", "why_tests_cant": "Violations need a specific interleaving of clear, re-request and stale completion.", "anchors": ["crates/revmc-runtime/src/runtime/backend.rs: try_admit, handle_worker_result, handle_clear_resident, run_eviction_sweep"]}
{"id": "C29", "title": "Clearing discards everything compiled before it", "statement": "Once a full clear has been processed, no program from a compilation dispatched before it ever becomes visible to lookups, no matter how late its result arrives; a clear of the resident programs alone gives the same except for artifacts already persisted.", "quantifier": "all interleavings of dispatch, clear and completion", "why_tests_cant": "Late completions after arbitrarily many clears.", "anchors": ["crates/revmc-runtime/src/runtime/backend.rs: handle_clear_resident, handle_worker_result, handle_aot_success, generation"]}
{"id": "C30", "title": "The pending-jobs statistic equals the number of jobs in flight", "statement": "stats().pending_jobs reports the number of compilation jobs dispatched but not yet completed.", "quantifier": "all histories of dispatches, completions and clears", "why_tests_cant": "Drift accumulates only over histories that include clears with jobs in flight.", "anchors": ["crates/revmc-runtime/src/runtime/stats.rs: RuntimeStatsSnapshot::pending_jobs, snapshot", "crates/revmc-runtime/src/runtime/backend.rs: handle_worker_result (stale branch)"]}
{"id": "C31", "title": "Background compilation starts exactly at the hotness threshold", "statement": "A contract that is only ever observed through lookups is dispatched for compilation at the observed miss that makes its miss count reach the threshold (given a free slot), never earlier; and the number of tracked not-yet-compiled contracts created by lookups never exceeds ten times the pending-job limit.", "quantifier": "all sequences of observed misses over any set of contracts", "why_tests_cant": "Counting property over arbitrary interleavings of many keys.", "anchors": ["crates/revmc-runtime/src/runtime/backend.rs: handle_lookup_observed, try_admit (hotness, max_entries)"]}
{"id": "C32", "title": "A synchronous compile request is released only when its outcome is known", "statement": "A caller blocked in a synchronous compile is released, and only after a compiled program for its key is resident, its compilation failed, the request was refused (ineligible or saturated), or the backend was cleared or shut down after the request.", "quantifier": "all command/result interleavings", "why_tests_cant": "Early or lost wake-ups need particular interleavings.", "anchors": ["crates/revmc-runtime/src/runtime/mod.rs: compile_jit_sync, lookup_blocking", "crates/revmc-runtime/src/runtime/backend.rs: try_admit, handle_worker_result, handle_clear_resident, run_eviction_sweep", "crates/revmc-runtime/src/runtime/worker.rs: SyncNotifier"]}
{"id": "C33", "title": "Eviction removes idle programs, then the least recently used JIT programs, and nothing else", "statement": "A sweep removes a resident program iff it has been idle for longer than the idle limit, or it is JIT code over budget; over-budget eviction proceeds in order of last use, stops as soon as usage is within budget, never removes ahead-of-time programs, and the usage metadata covers exactly the resident programs at all times.", "quantifier": "all resident sets, hit times, budgets, memory-usage readings", "why_tests_cant": "Order and stopping conditions over arbitrary sets; invariant over histories.", "anchors": ["crates/revmc-runtime/src/runtime/backend.rs: run_eviction_sweep, insert_resident, remove_resident, should_sweep"]}
{"id": "C34", "title": "Nested pause/resume leaves the compiler paused iff some pause is outstanding", "statement": "After any concurrent use of pause() and resume() (each resume matching an earlier pause) and once all signals are delivered, the compilation helper is paused iff at least one pause has not been resumed.", "quantifier": "all interleavings of any number of threads calling pause and resume", "why_tests_cant": "A race between two atomic steps of different threads is needed to break it.", "anchors": ["crates/revmc-runtime/src/runtime/mod.rs: JitBackend::pause, resume, try_send_control, is_paused", "crates/revmc-runtime/src/runtime/out_of_process.rs: HelperProcess::pause, resume"]}
{"id": "C35", "title": "The artifact store behaves like a map with one file per key", "statement": "Any sequence of store/load/delete/clear calls behaves like a finite map: load returns the artifact last stored for exactly that key and not deleted/cleared since; different keys never share a file; and whenever load succeeds the file it points to exists with the stored bytes, even when calls from several threads overlap.", "quantifier": "all operation sequences, all keys, all interleavings of file and index steps", "why_tests_cant": "Interleavings of file-system and index steps; key-to-path injectivity over all keys.", "anchors": ["crates/revmc-runtime/src/runtime/storage.rs: RuntimeArtifactStore::{load,store,delete,clear}, artifact_path, ArtifactKey"]}
{"id": "C36", "title": "Each out-of-process job receives its own answer, once", "statement": "With any number of concurrent jobs, any order of helper responses, unknown ids, and a helper crash at any point, each waiting job is answered at most once, only with the response carrying its own id or with an error, and after the helper's output ends every job registered before that is answered; a job never times out while the backend is paused.", "quantifier": "all interleavings of job submission, responses, reader failure", "why_tests_cant": "Arbitrary response orders and crash points.", "anchors": ["crates/revmc-runtime/src/runtime/out_of_process.rs: HelperProcess::compile, HelperProcessInner::compile, reader thread, JobResponse"]}
{"id": "C37", "title": "The helper process compiles with the parent's settings", "statement": "Encoding the compiler settings for the helper process and decoding them there makes the helper compile every job with the settings an in-process compilation would use: all 256 gas parameters, optimisation level, fork and every flag (the debug dump directory too, if its name is valid UTF-8); malformed gas-parameter lists (missing, duplicate or extra entries) and unknown levels are rejected rather than defaulted.", "quantifier": "all configurations, all gas schedules, all byte values, all malformed lists", "why_tests_cant": "256 64-bit parameters in any order; rejection is a universal claim.", "anchors": ["crates/revmc-runtime/src/runtime/out_of_process.rs: gas_params_to_pairs, gas_params_from_pairs, opt_level_to_u8, opt_level_from_u8, helper_init, runtime_config_from_init"]}
{"id": "C38", "title": "A suspended frame resumes in the engine that started it", "statement": "A call frame that began in the interpreter is always resumed by the interpreter and one that began in compiled code is always resumed in the same compiled code, for every frame and every timing of background compilation, because the resume position has different meanings in the two engines.", "quantifier": "all transaction executions, all call nestings, all timings of compile completion and eviction", "why_tests_cant": "Depends on the timing of background compilation relative to nested calls.", "anchors": ["crates/revmc-runtime/src/revm_evm.rs: JitEvm::frame_run, inspect_frame_run, invalidate_cache, set_backend", "crates/revmc-context/src/jit_evm.rs: JitEvm::frame_run", "crates/revmc-context/src/lib.rs: ResumeAt"]}
{"id": "C39", "title": "Assembler labels resolve to the real offsets", "statement": "Whenever the assembler succeeds, each label name's value equals the number of bytes emitted before its last definition (the only one, if names are not reused), every PUSH of a label encodes exactly that value in the fewest bytes, and the width iteration terminates for every source.", "quantifier": "all item sequences with any number of labels and references", "why_tests_cant": "Width growth shifts later labels; fixpoint over arbitrary programs near 256/65536-byte boundaries.", "anchors": ["crates/revmc-codegen/src/bytecode/asm.rs: layout_and_emit, resolve_imm, min_push_width, encode_imm"]}
{"id": "C40", "title": "Assembled code decodes to the instructions written", "statement": "Assembling a token stream and parsing the result with the compiler's own decoder gives back the same instructions in order, with the same opcodes and the same immediate values; PUSH uses the fewest bytes, and literals too large for a fixed width are rejected.", "quantifier": "all token streams, instruction lists and 256-bit literals", "why_tests_cant": "Round trip over unbounded programs.", "anchors": ["crates/revmc-codegen/src/bytecode/asm.rs: emit_inst_no_labels, encode_imm", "crates/revmc-codegen/src/bytecode/opcode.rs: OpcodesIter::next"]}
{"id": "C41", "title": "Gas forwarded to a sub-call obeys the all-but-one-64th rule and is conserved", "statement": "For CALL/CALLCODE/DELEGATECALL/STATICCALL and CREATE/CREATE2 the gas given to the child (before stipend) plus the gas left equals the gas before forwarding; from Tangerine Whistle on the child gets at most remaining - remaining/64 (and at most what was requested for calls); the stipend is added only for value transfers; if the charge cannot be paid the call fails with out of gas and nothing is forwarded.", "quantifier": "all gas amounts, requested amounts, value flags and forks", "why_tests_cant": "64-bit arithmetic boundary cases over all gas values.", "anchors": ["crates/revmc-builtins/src/lib.rs: __revmc_builtin_call, __revmc_builtin_create", "crates/revmc-builtins/src/macros.rs: gas!"]}
{"id": "C42", "title": "No state change inside a static call", "statement": "In a static context SSTORE, TSTORE, LOG, CREATE, CREATE2, SELFDESTRUCT and a CALL with value fail before touching host state, and a sub-call made from a static context is itself static, at any nesting depth.", "quantifier": "all builtin invocations, all nesting depths", "why_tests_cant": "Must hold transitively over call trees of any depth.", "anchors": ["crates/revmc-builtins/src/lib.rs: __revmc_builtin_sstore, __revmc_builtin_tstore, __revmc_builtin_log, __revmc_builtin_create, __revmc_builtin_call, __revmc_builtin_selfdestruct", "crates/revmc-builtins/src/macros.rs: ensure_non_staticcall!"]}
{"id": "C43", "title": "Data-access builtins agree with the EVM at every offset", "statement": "CALLDATALOAD returns the 32 bytes at the offset with zeros beyond the input for every 256-bit offset; RETURNDATACOPY fails iff offset+length exceeds the return data, for every 256-bit offset and length; BLOCKHASH asks the host for exactly the requested block iff it is one of the previous 256, and returns 0 otherwise, for block heights a 64-bit number can hold (the host interface takes a 64-bit number).", "quantifier": "all 256-bit offsets/lengths/block numbers and all inputs", "why_tests_cant": "Saturating conversions hide wrap-around errors only at extreme values.", "anchors": ["crates/revmc-builtins/src/lib.rs: do_calldataload, __revmc_builtin_returndatacopy, __revmc_builtin_blockhash"]}
{"id": "C44", "title": "Stack-inspection mode exposes the final stack at every exit", "statement": "With stack inspection enabled, whenever the compiled function returns through any exit (STOP, RETURN, REVERT, failure of the last instruction's section check), the caller-visible stack buffer and length are those of the EVM at that point.", "quantifier": "all programs and exits", "why_tests_cant": "Depends on which of several lowering paths is chosen for the exit instruction.", "anchors": ["crates/revmc-codegen/src/compiler/mod.rs: EvmCompiler::inspect_stack", "crates/revmc-codegen/src/compiler/translate/mod.rs: return_common, sync_diverging_stack_effect", "crates/revmc-codegen/src/compiler/translate/peephole.rs: peephole_return"]}
{"id": "C45", "title": "The helper may only run on CPUs the parent was allowed to use", "statement": "Limiting the helper to N CPUs selects a subset of the allowed CPUs, of size min(N, allowed), namely the lowest-numbered ones; a limit of zero or an empty set is handled without widening the mask.", "quantifier": "all affinity masks and limits", "why_tests_cant": "All masks of any size.", "anchors": ["crates/revmc-runtime/src/runtime/out_of_process.rs: limit_cpu_affinity"]}
{"id": "C46", "title": "Startup preloading is deterministic per key", "statement": "When several stored artifacts map to the same runtime key, preloading installs exactly one of them (the first in iteration order that loads) and never replaces it by a later one; artifacts that fail to load do not affect the others.", "quantifier": "all artifact lists and load outcomes", "why_tests_cant": "Arbitrary lists with duplicates and failures.", "anchors": ["crates/revmc-runtime/src/runtime/mod.rs: preload_aot"]}
{"id": "C47", "title": "Cached lookup decisions never cross a fork change", "statement": "Whatever sequence of fork changes, backend replacements and transactions a JIT EVM sees, a call frame only ever runs compiled code that was built for its own code hash and the fork in force when it runs, although decisions are cached by code hash alone.", "quantifier": "all sessions of one JIT EVM, all call nestings, all backend timings", "why_tests_cant": "Needs particular orders of fork changes and cached hits.", "anchors": ["crates/revmc-runtime/src/revm_evm.rs: JitEvm::invalidate_cache, set_backend, frame_run, transact_one"]}
{"id": "C48", "title": "Compiling any allowed contract completes without a compiler panic in the dead-store pass", "statement": "For every contract bytecode within the configured size limit, the pass that marks unneeded stack stores terminates with a result; it never indexes outside its liveness window nor otherwise panics.", "quantifier": "all bytecodes within the size limit, all fork settings, both inspect modes, all results of the earlier analyses", "why_tests_cant": "The window is sized from saturated 16-bit counters; only blocks whose stack demand exceeds 65535 words (thousands of specific instructions in one block) reach the bad indexing, which no hand-written or small-size fuzz test generates.", "anchors": ["crates/revmc-codegen/src/bytecode/passes/dead_store_elim.rs:35-230", "crates/revmc-codegen/src/bytecode/passes/sections.rs:199-204", "crates/revmc-runtime/src/runtime/config.rs:259"]}
{"id": "C49", "title": "Every live PUSH has its value known when code is generated", "statement": "For every bytecode, when instructions are translated, each PUSH that is not dead code has its pushed value recorded by the analyses, so translation never reaches the branch that treats a PUSH with unknown value as impossible and aborts the compiler.", "quantifier": "all bytecodes, all forks, all results of joining block states", "why_tests_cant": "The translator relies on an unchecked agreement between two modules; a single path through the abstract interpreter that stops early (for instance an undecodable EIP-8024 immediate) breaks it only for the instructions behind that point.", "anchors": ["crates/revmc-codegen/src/compiler/translate/mod.rs:1095-1097", "crates/revmc-codegen/src/bytecode/passes/block_analysis.rs:1060-1212", "crates/revmc-codegen/src/bytecode/mod.rs:689"]}
{"id": "C50", "title": "Constants recorded by the whole-program analysis hold in every execution", "statement": "After the control-flow analysis of a program, every operand it reports as a constant has exactly that value whenever any execution of the whole program arrives at the instruction with its operands, and every output it reports as a constant is what the instruction pushes in every execution.", "quantifier": "all programs, all executions (all paths, loops, call data, storage and host answers)", "why_tests_cant": "Combines per-block interpretation with the fixpoint over all paths, discovered jump edges and invalidation; a wrong constant only shows on one path of one program.", "anchors": ["crates/revmc-codegen/src/bytecode/passes/block_analysis.rs: run_fixpoint, run_abstract_interp, invalidate_suspect_jumps, Snapshots::restore_from", "crates/revmc-codegen/src/bytecode/mod.rs: const_operand, const_output"]}
{"id": "C51", "title": "Assembly text: layout and comments never change the program", "statement": "Every assembly text is read as exactly one sequence of lexemes (each as long as possible, decimal and hexadecimal literals up to 2^256-1, labels, label references, parameter references, punctuation), nothing being skipped or read twice. Two texts without directives that spell the same lexemes, with any blanks, line ends and comments between them, assemble to the same bytes or are both rejected.", "quantifier": "all texts", "why_tests_cant": "The tests assemble a few dozen snippets in one style; the claim is about every placement of blanks and comments around every lexeme.", "anchors": ["crates/revmc-codegen/src/bytecode/asm.rs:80-226", "crates/revmc-codegen/src/bytecode/asm.rs:264-302"]}
{"id": "C52", "title": "Macro expansion follows the definitions of the source", "statement": "Preprocessing a source succeeds exactly when all its directives are well formed and every use of a function-like macro has an argument list with the right number of arguments; the result is the remaining text with each use replaced by the body, references to parameters replaced by the arguments, the last definition of a name counting for the whole text. A definition may be moved past lines without directives without changing the program.", "quantifier": "all sources, all macro definitions and uses", "why_tests_cant": "Nested parentheses in arguments, redefinitions, uses before definitions and malformed lists combine in unboundedly many ways.", "anchors": ["crates/revmc-codegen/src/bytecode/asm.rs:228-302", "crates/revmc-codegen/src/bytecode/asm.rs:303-357", "crates/revmc-codegen/src/bytecode/asm.rs:358-470"]}
{"id": "C53", "title": "Disassembling and assembling again gives the same bytecode", "statement": "For every bytecode whose instructions are all known opcodes with complete immediates, assembling the text printed by the disassembler gives back exactly the bytecode.", "quantifier": "all bytecodes, all forks", "why_tests_cant": "The printed text passes through two independent components; only immediates of particular instructions and values are treated differently by them.", "anchors": ["crates/revmc-codegen/src/bytecode/opcode.rs: format_bytecode, OpcodesIter", "crates/revmc-codegen/src/bytecode/asm.rs:34-42"]}
{"id": "C54", "title": "A whole compiled program does what the EVM does", "statement": "Compiling any bytecode (parsing, control-flow analysis, constant propagation, optional dead-store elimination, stack sections, translation) and executing the result block by block gives the same behaviour as executing the bytecode instruction by instruction: at every block entry the same stack after the same number of instructions; the same effects on the world with the same operands in the same order, and the same stack shown at calls and creations; and the same end: halting at the same instruction, failing with an invalid jump, a stack error or an undecodable immediate where the EVM does. Conversely, the compiled program ends only in a way the EVM's execution ends.", "quantifier": "all bytecodes, forks and compiler limits, all answers of the world, all executions of any length, all initial contents of the stack buffer", "why_tests_cant": "The passes interact: a fact recorded by one analysis is used to drop code, to skip stores or to turn a jump into a branch elsewhere, and a wrong combination shows only for particular programs and data.", "anchors": ["crates/revmc-codegen/src/bytecode/mod.rs:421-460", "crates/revmc-codegen/src/compiler/translate/mod.rs:198-470", "crates/revmc-codegen/src/compiler/translate/mod.rs:501-1172", "crates/revmc-codegen/src/compiler/translate/mod.rs:1765-1801", "crates/revmc-codegen/src/bytecode/passes/dead_store_elim.rs:32-139"]}
{"id": "C55", "title": "A whole compiled program leaves the gas that the EVM leaves", "statement": "Charging the static gas of a section at its head (with the cost of an EXP whose exponent is known at compile time) and the rest where instructions run cannot be told from an EVM that pays for every instruction when it executes it: at every block entry, at every instruction whose result depends on the remaining gas (GAS, SSTORE from Istanbul on, calls, creations) and when the program halts, the compiled program has exactly the EVM's remaining gas; where the EVM runs out of gas the compiled program fails too, and it fails for lack of gas only in executions that fail in the EVM.", "quantifier": "all bytecodes and forks, all gas limits, all gas tables whose sum fits 32 bits, all dynamic costs and answers of the world, all executions of any length", "why_tests_cant": "An error of one unit in a section sum, or a section that reaches over an instruction reading the counter, is visible only in programs with that section and a gas limit within the difference.", "anchors": ["crates/revmc-codegen/src/bytecode/passes/sections.rs:216-244", "crates/revmc-codegen/src/compiler/translate/mod.rs:569-604", "crates/revmc-codegen/src/compiler/translate/mod.rs:1669-1684", "crates/revmc-codegen/src/compiler/translate/mod.rs:1072-1078", "crates/revmc-codegen/src/bytecode/mod.rs:1128-1135"]}
{"id": "C56", "title": "A whole compiled program keeps the EVM's memory", "statement": "Skipping memory checks, resizing directly, caching the memory's address and size in the context and in a register, and storing words in the machine's byte order cannot be told from an EVM with a growing byte array: along every execution the compiled code reads and writes only inside the memory, MLOAD and MSIZE give the EVM's words, and after every instruction (including the last one, whose return data is taken from it) the memory has the EVM's size and bytes, wherever the memory moves when it grows or when other frames run.", "quantifier": "all bytecodes and forks, all executions of any length that pay for their memory, all contents written by copies and calls, all addresses to which the memory moves, both byte orders", "why_tests_cant": "A register that outlives a reallocation is seen only if the allocator really moves the buffer and a later access in the same section is proven covered; a skipped check is seen only on the one path that did not grow the memory.", "anchors": ["crates/revmc-codegen/src/compiler/translate/mod.rs:945-963", "crates/revmc-codegen/src/compiler/translate/mod.rs:1686-1753", "crates/revmc-codegen/src/compiler/translate/mod.rs:1938-1954", "crates/revmc-codegen/src/bytecode/passes/memory_sections.rs:108-283", "crates/revmc-context/src/lib.rs:125-198", "crates/revmc-builtins/src/utils.rs:84-95"]}
{"id": "C57", "title": "Frames on one shared memory buffer behave as frames with their own memory", "statement": "The builtins for KECCAK256, CALLDATALOAD, CALLDATACOPY, CODECOPY, EXTCODECOPY, RETURNDATACOPY, MLOAD, MSTORE, MSTORE8, MCOPY, LOG0..LOG4, RETURN, REVERT, CALL, CALLCODE, DELEGATECALL, STATICCALL, CREATE and CREATE2 run all frames of a transaction on one buffer, and pass call data as a range of the caller's memory. This cannot be told from frames that own their memory and copies of their data: every frame ends the same way (halt, revert, return) with the same returned data and gas left, hands the same logs to the host, sees the same call data after its callees grew or wrote the buffer, and never writes the memory of the frames below it. No access is out of bounds and nothing panics.", "quantifier": "all trees of nested frames of any depth and length, where each instruction may depend on all earlier answers; all operands; all total gas amounts up to 2^55; all forks' call and init-code rules", "why_tests_cant": "Aliasing between a callee's growing memory and its call data below the checkpoint shows only for particular nesting, offsets and growth; offset overflows need operands near 2^64, and running out of gas at each of the charges needs every gas amount.", "anchors": ["crates/revmc-builtins/src/lib.rs:177-363", "crates/revmc-builtins/src/lib.rs:577-862", "crates/revmc-builtins/src/utils.rs:52-112", "crates/revmc-builtins/src/macros.rs:2-62"]}
{"id": "C58", "title": "Compiled code that suspends at calls and is resumed does what the EVM does", "statement": "At every CALL- or CREATE-type instruction a compiled function returns to its caller with its stack written to the caller's stack and a resume point in the caller's program counter; called again with the result pushed, it goes on behind that instruction. Whatever its own stack memory and the unused part of the caller's stack hold, and however often it suspends, the frame ends exactly as if calls were single instructions: same outcome, stack and sequence of effects as the EVM. At each suspension the caller is left with the EVM's stack below the call's operands. The stored resume point is never zero, never exceeds the length of the bytecode, is always accepted, and there is always a next instruction to go on with.", "quantifier": "all bytecodes up to 2^31 bytes that compile, with and without dead-store elimination and stack inspection, all worlds answering the instructions, all garbage in stack memories, all numbers of suspensions; the EVM-level statements for executions with at most 64 words on the stack at a JUMPDEST or right after a JUMPI", "why_tests_cant": "A value still only in a register, a stale slot of the function's own stack, or a wrong entry of the resume table shows only if the live stack at a particular suspension is deep enough and the garbage differs; tests reuse zeroed buffers and a few call sites.", "anchors": ["crates/revmc-codegen/src/compiler/translate/mod.rs:218-229", "crates/revmc-codegen/src/compiler/translate/mod.rs:344-466", "crates/revmc-codegen/src/compiler/translate/mod.rs:1386-1500", "crates/revmc-codegen/src/bytecode/mod.rs:571-574", "crates/revmc-context/src/lib.rs:30-60", "crates/revmc-context/src/lib.rs:287-337"]}
{"id": "C59", "title": "Instructions that read and write the state cost and do what the EVM says, on every fork", "statement": "BALANCE, EXTCODESIZE, EXTCODEHASH, SELFBALANCE, DIFFICULTY/PREVRANDAO, BLOBHASH, SLOAD, SSTORE, TLOAD, TSTORE and SELFDESTRUCT in compiled code, the base gas charged ahead and the rest charged by the runtime helper taken together, cost on every fork what the Yellow Paper and EIPs 150, 161, 1884, 2200, 2929, 3529 and 8037 say, return the EVM's value, change storage, refund counter, reservoir and accessed sets as the EVM does, and end exceptionally exactly when it does; a constant storage key known to the compiler makes no difference. Each asks the database at most once, never about something already accessed and, from Berlin on, never when the cold access cannot be paid; a fatal error is reported only when the database failed.", "quantifier": "all forks, all operands, gas amounts, refund counters and states, known or unknown keys, and all runs of such instructions in a frame; the cost statement for a database that answers, the statement about requests for any database", "why_tests_cant": "The cost is the sum of a base charged per section and a remainder computed from original, current and new value, warmth and fork; the combinations are far more than state tests cover, and a load that should have been skipped for lack of gas leaves no trace in the result, only in the requests made.", "anchors": ["crates/revmc-builtins/src/lib.rs:216-225", "crates/revmc-builtins/src/lib.rs:305-314", "crates/revmc-builtins/src/lib.rs:364-374", "crates/revmc-builtins/src/lib.rs:427-466", "crates/revmc-builtins/src/lib.rs:483-574", "crates/revmc-builtins/src/lib.rs:864-896", "crates/revmc-builtins/src/utils.rs:30-68", "crates/revmc-codegen/src/bytecode/info.rs:94-222"]}
{"id": "C60", "title": "Merging equal blocks does not change what a compiled program does", "statement": "A program compiled with block deduplication, in which every transfer to a merged block goes to the block kept in its place, does what the EVM does: it halts, jumps invalidly, over- or underflows the stack or rejects an immediate exactly when the EVM's execution does, possibly at another copy of the same instruction, with the same operands handed to the outside world in the same order and the same stack height, and conversely. It never runs into a block that was removed.", "quantifier": "all bytecodes up to 2^31 bytes that compile, with and without dead-store elimination and stack inspection, all worlds whose answers do not depend on where in the code an instruction is, all executions with at most 64 words on the stack at a JUMPDEST or right after a JUMPI, immediates that print unambiguously in the fingerprint", "why_tests_cant": "Two blocks merged wrongly differ in behaviour only on the stacks that tell them apart, and a stale redirect or a constant recorded for one predecessor only shows when the kept block is entered from the removed block's predecessors; with rounds of merging the number of such paths explodes.", "anchors": ["crates/revmc-codegen/src/bytecode/mod.rs:421-460", "crates/revmc-codegen/src/bytecode/passes/dedup.rs:28-214", "crates/revmc-codegen/src/compiler/translate/mod.rs:308-335", "crates/revmc-codegen/src/compiler/translate/mod.rs:472-558", "crates/revmc-codegen/src/compiler/translate/mod.rs:972-1057"]}
{"id": "C61", "title": "Compiler sessions: a function pointer runs the code of its id, for as long as it is loaded", "statement": "Over any sequence of translate, jit_function, write_object, free_function, clear_ir, clear and hand-overs of resource trackers on one compiler: every translate returns an id never used before; jit_function for an id returns a pointer that is loaded and runs the code translated under that id; that pointer keeps running it until the function, a function committed together with it, or everything is freed, no matter what is translated, compiled or cleared from the IR in between; freeing a function never unloads functions translated before or after another clear; clear unloads exactly what this compiler loaded; once a module is finalised translate fails without effect until a clear; an object file contains exactly the functions translated since the last clear, in order; no call touches a function of a module that is gone. Compiling succeeds whenever LLVM does and no name is used twice.", "quantifier": "all sequences of calls, names, codes, outcomes of verification, optimisation and linking, in any process with other compilers loaded; the pointer and memory-safety parts for callers that use no name twice before a clear or that clear after a failed jit_function", "why_tests_cant": "The staged, committed and tracker tables are index-based and updated in different calls; a wrong association only shows for particular interleavings of frees, clears, failed links and reused names, and then as another contract's code being run or a use after free.", "anchors": ["crates/revmc-codegen/src/compiler/mod.rs:85-141", "crates/revmc-codegen/src/compiler/mod.rs:448-560", "crates/revmc-codegen/src/compiler/mod.rs:584-660", "crates/revmc-llvm/src/lib.rs:372-454", "crates/revmc-llvm/src/lib.rs:706-820", "crates/revmc-llvm/src/lib.rs:913-995", "crates/revmc-llvm/src/lib.rs:1040-1132"]}
{"id": "C62", "title": "A compiled program stays callable for as long as somebody holds it, and its memory goes when nobody does", "statement": "In a process with any number of compile workers, whatever compile jobs run, whichever of them fail in parsing, optimisation or linking, whenever compilers are recycled, objects from the helper process are linked, programs are dropped and workers stop: the pointer of a program somebody holds leads to the code of the contract it was compiled for; two held programs never share code; code loaded by others is not touched; no job panics; once nobody holds a program and no worker runs, nothing stays loaded, and as long as linking never failed the code of a program goes when it is dropped. Linking an object from the helper always succeeds, and a job succeeds when no program of the same contract is held.", "quantifier": "all sequences of steps over all workers, recycle thresholds, names, codes and outcomes of LLVM, from any process state; reclamation per program and success of jobs as long as LLVM never failed after adding a module", "why_tests_cant": "Code is freed by reference counts on trackers and on shared symbol spaces across threads; a tracker popped for the wrong job or a guard dropped too early frees code that is executing, only in particular orders of recycling, eviction and failure.", "anchors": ["crates/revmc-runtime/src/runtime/worker.rs:144-182", "crates/revmc-runtime/src/runtime/worker.rs:352-355", "crates/revmc-runtime/src/runtime/worker.rs:415-569", "crates/revmc-runtime/src/runtime/backend.rs:66-105", "crates/revmc-llvm/src/lib.rs:307-315", "crates/revmc-llvm/src/lib.rs:350-396", "crates/revmc-llvm/src/lib.rs:456-468", "crates/revmc-llvm/src/lib.rs:780-820"]}
{"id": "C63", "title": "What is declared to the optimiser about builtins is true, and builtins stay within their instruction's stack slots", "statement": "Every attribute declared to LLVM for a runtime builtin is true of every run of it: parameters declared read-only are not written, parameters declared write-only are not read, accesses stay within the declared sizes, result slots declared initialised are filled whenever it returns and not read before, functions declared not to return do not, functions declared to access only memory behind their arguments do so, functions declared not to free memory do not. A builtin called for an instruction touches only the stack slots of that instruction's operands and results, changes only result slots, reads only operands that the compiled code has put into memory, and has written every result when it returns.", "quantifier": "all 48 builtins, all of their control-flow paths and outcomes, all topic counts and call/create kinds, all opcodes that call a builtin, all stack heights, all layouts of the context of at least 168 bytes", "why_tests_cant": "A wrong attribute is silent until some optimiser version uses it on some caller; an operand slot left unwritten for a constant-operand variant holds the right value by accident in most programs.", "anchors": ["crates/revmc-builtins/src/ir.rs:69-108", "crates/revmc-builtins/src/ir.rs:172-322", "crates/revmc-builtins/src/lib.rs:77-896", "crates/revmc-builtins/src/utils.rs:53-112", "crates/revmc-codegen/src/compiler/translate/mod.rs:1505-1590", "crates/revmc-codegen/src/compiler/translate/peephole.rs:250-316"]}
{"id": "C64", "title": "Entering and leaving compiled code preserves the caller's registers and stack", "statement": "Calling a compiled function passes it its context, stack and stack-length arguments unchanged, with the stack aligned as the platform's calling convention requires, and touches no memory but the caller-invisible part of the stack and the saved stack pointer in the context. Whether the function returns normally or a builtin aborts it from any call depth, the caller continues at its return address with its stack pointer and every callee-saved register as before, and receives the function's result, respectively the result the builtin stored in the context.", "quantifier": "all register and memory contents, all context addresses and field offsets, all compiled functions that respect the calling convention, all states in which a builtin aborts; x86_64 System V and AArch64", "why_tests_cant": "A callee-saved register that is lost or restored from the wrong slot only shows when the calling Rust code happens to keep a live value there across the call, which depends on the compiler version and optimisation level.", "anchors": ["crates/revmc-context/src/arch/x86_64.rs:9-70", "crates/revmc-context/src/arch/aarch64.rs:20-92", "crates/revmc-context/src/arch/mod.rs:13-17"]}
{"id": "C65", "title": "Stack words and stack buffers handed across the interface denote the EVM's numbers and stack", "statement": "A stack word built from a number, from 32 big- or little-endian bytes or from a slice of up to 32 bytes is exactly the word compiled code loads as that number, on little- and big-endian machines; converting a word back to a number, bytes, an address or a machine size gives its value, respectively its low 160 bits, respectively its value if it fits in 64 bits and an error otherwise; conversions round-trip. Pushing, reading from the top, setting and slicing a stack buffer behave like the same operations on an EVM stack; documented panics occur exactly out of bounds.", "quantifier": "all 256-bit values, all byte strings, both byte orders, all buffer contents and lengths up to 1024, all indices", "why_tests_cant": "No big-endian machine is in the test matrix; palindromic or small sample values hide byte-order and limb-order errors.", "anchors": ["crates/revmc-context/src/lib.rs:391-620", "crates/revmc-context/src/lib.rs:622-822"]}
{"id": "C66", "title": "A call of compiled code through the interpreter interface returns what the code did, and inspection does not change it", "statement": "The action returned by a call of a compiled function is the one the function asked for during this call, and otherwise a return with its result, empty output and the gas left; an action left in the interpreter from before never surfaces, and none is left afterwards. The interpreter then holds the function's gas (none after running out), resume point and resources. Running a frame with an inspector that does not change results has the same effect as running it without; the inspector hears every log once and in order, of a destroyed contract only if the function ended so, and of the end of the frame exactly if it ended. A reported destruction is the one that happened.", "quantifier": "all compiled functions, all interpreter, host and frame states, all inspectors, all ways the EVM processes the resulting action", "why_tests_cant": "Stale actions need a reused interpreter in an unusual state; the order and multiplicity of notifications for all interleavings of logs, suspensions and frame ends cannot be enumerated.", "anchors": ["crates/revmc-context/src/lib.rs:283-348", "crates/revmc-context/src/lib.rs:152-199", "crates/revmc-context/src/jit_evm.rs:119-150", "crates/revmc-context/src/jit_evm.rs:232-305", "crates/revmc-context/src/jit_evm.rs:327-346", "crates/revmc-builtins/src/lib.rs:618-630"]}
{"id": "C67", "title": "Builtins shared by concurrently compiling threads are defined once and at the right address", "statement": "Threads of a process that compile or link at the same time share one table of builtin functions. However their steps interleave: no definition is refused as a duplicate, a defined builtin keeps its address, code that links is bound to the requested address of every builtin it uses, and once no thread is registering builtins everything requested is defined. Code whose own registration has finished should always link; it does if no other thread is between announcing and defining one of the builtins it uses.", "quantifier": "all numbers of threads, request lists (also overlapping, empty or with repeated names), sets of names exported by the process, and interleavings of registering, defining and linking", "why_tests_cant": "The set of announced names and the table of defined names are updated in two steps, the second one outside the lock; whether another thread links in between depends on timing at the start of the process.", "anchors": ["crates/revmc-llvm/src/lib.rs:290-344", "crates/revmc-llvm/src/lib.rs:456-468", "crates/revmc-llvm/src/lib.rs:705-735", "crates/revmc-llvm/src/lib.rs:1895-1914", "crates/revmc-llvm/src/orc.rs:985-992"]}
{"id": "C68", "title": "The state-test runner reports success only if every test of every file passed", "statement": "A run over a list of test files, with any number of worker threads, ends; if it is reported as passed, every file was run exactly once and passed, and if it is reported as failed some file failed. With keep-going, and as long as no file panics, every file is run. A file passes exactly if it is skipped, or can be read and each of its tests, for each fork but Constantinople, has the expected exception, or else the expected logs, state and, if both sides have one, output; a test without a transaction counts only if an exception was expected.", "quantifier": "all file lists, thread counts, outcomes of files including panics, interleavings of the worker threads, suites and execution results", "why_tests_cant": "The runner is what the other tests rely on: a file lost between threads, or an error swallowed when a sibling stops early, makes runs pass silently and depends on timing.", "anchors": ["crates/revmc-statetest/src/runner.rs:162-258", "crates/revmc-statetest/src/runner.rs:261-349", "crates/revmc-statetest/src/runner.rs:383-430", "crates/revmc-statetest/src/compiled.rs:112-236", "crates/revmc-statetest/src/compiled.rs:239-379"]}
{"id": "C69", "title": "The blockchain-test runner passes a test only if the chain does what the fixture says", "statement": "A test of valid blocks passes exactly if there is a chain in which every system call succeeds, every transaction succeeds, each block uses the gas of its header, rewards and withdrawals are paid by the rules of the fork, and every account listed in the post state has the expected balance, nonce, storage and (if given) code. A block that must be rejected leaves no trace: it changes no account, and the recorded hashes of all other blocks stay those of their headers. The block reward is five, three, two or no ether by fork plus a thirty-second of it per ommer. A test for a single fork is run with that fork's rules. A run over files succeeds exactly if every file that is not skipped can be read and all its tests pass.", "quantifier": "all EVMs (as functions), forks, chains, fixtures, post states and file lists", "why_tests_cant": "This runner decides what counts as conformance; a block passed over silently, or a trace left by a rejected block, makes the suite pass or fail for the wrong reason and no test checks the runner itself.", "anchors": ["crates/revmc-statetest/src/btest/mod.rs:36-143", "crates/revmc-statetest/src/btest/mod.rs:248-377", "crates/revmc-statetest/src/btest/mod.rs:557-974", "crates/revmc-statetest/src/btest/pre_block.rs:14-72", "crates/revmc-statetest/src/btest/post_block.rs:17-108"]}
{"id": "C70", "title": "Builder constants and checked operations mean the numbers asked for", "statement": "An integer constant built from a signed 64-bit number is that number at every width (modulo the width if it does not fit); one built from an unsigned number is zero-extended; a 256-bit constant is the given value for every value, however it is made, and never a panic. Every comparison condition compares the numbers as its name says, with or without sign, and so does a comparison with an immediate. Adding, subtracting, multiplying or combining bits with an immediate uses the immediate as a signed number. A checked addition or subtraction returns the wrapped result and reports exactly whether the true result did not fit. A switch whose keys fit the index goes to the target listed for it, else to the default.", "quantifier": "all widths, all 64-bit immediates, all 256-bit values, all operands, all target lists", "why_tests_cant": "Every lowering goes through these helpers; a sign extension wrong for one range of immediates or a wrong overflow comparison shows only on operands near a boundary out of 2^512 pairs.", "anchors": ["crates/revmc-llvm/src/lib.rs:1417-1438", "crates/revmc-llvm/src/lib.rs:1523-1533", "crates/revmc-llvm/src/lib.rs:1571-1586", "crates/revmc-llvm/src/lib.rs:1651-1679", "crates/revmc-llvm/src/lib.rs:1732-1745", "crates/revmc-llvm/src/lib.rs:2110-2123"]}
{"id": "C71", "title": "Merging equal blocks does not change the gas of a compiled program", "statement": "A program compiled with block deduplication that meters gas leaves exactly the gas that the EVM leaves: the same amount wherever the counter is read, at the start of every block and when the execution halts, also while it executes a kept block in place of a removed one. It runs out of gas, or fails in another way, only if the EVM's execution fails, and whenever that does.", "quantifier": "all bytecodes up to 2^31 bytes that compile, with and without dead-store elimination and stack inspection, all gas limits, all gas tables in which STOP is free and the program's static gas fits 32 bits, all worlds and dynamic costs that do not depend on where in the code an instruction is, all executions with at most 64 words on the stack at a JUMPDEST or right after a JUMPI, immediates that print unambiguously in the fingerprint", "why_tests_cant": "The static gas of a section is charged at its head from results computed for the kept copy after merging; a charge that differs between copies, e.g. an EXP whose exponent is known in only one of them, shows as a few units of gas and only when the kept block is entered from a removed block's predecessor.", "anchors": ["crates/revmc-codegen/src/bytecode/mod.rs:421-460", "crates/revmc-codegen/src/bytecode/passes/dedup.rs:28-214", "crates/revmc-codegen/src/bytecode/passes/sections.rs", "crates/revmc-codegen/src/compiler/translate/mod.rs:308-335", "crates/revmc-codegen/src/compiler/translate/mod.rs:569-604"]}
{"id": "C72", "title": "The differential state-test command ends well exactly if compiled code agrees with the interpreter", "statement": "Comparing two executions reports nothing exactly if they ended the same way (same kind and reason), with the same output, gas, state root and logs root, and reports a field exactly if it differs. The command ends well exactly if there are files and on every chosen test (wanted fork and name, with a transaction) compiled code, run one test after another over one backend, did what the interpreter did; this does not depend on --keep-going. The printed counts are the number of chosen tests and of those that differ. Every file that is not skipped by name was compared.", "quantifier": "all suites, filters, and behaviours of the interpreter and of compiled code as a function of test and backend state", "why_tests_cant": "This is the test harness: a comparison that misses a field or a loop that ends early shows as success.", "anchors": ["crates/revmc-statetest/src/diagnostic.rs:37-76", "crates/revmc-statetest/src/diagnostic.rs:154-196", "crates/revmc-cli/src/cmd/statetest_diff.rs:33-177"]}
{"id": "C73", "title": "A loaded benchmark runs each contract by its own compiled code and the sanity check compares the results", "statement": "After loading a benchmark, every contract with code is run by a function compiled from code with its hash, whatever correct functions the caller brings, compiled or pending; nothing is compiled for accounts without code. The same holds when it is loaded from a shared library. A benchmark that passes the sanity check ends alike under the interpreter and compiled.", "quantifier": "all lists of accounts, hash functions, functions brought by the caller, pairs of results", "why_tests_cant": "The fixtures have one outcome each; a contract run by the code of another, or wrong gas, only shows with the right fixture.", "anchors": ["crates/revmc-cli/src/fixture.rs:152-191", "crates/revmc-cli/src/fixture.rs:198-231", "crates/revmc-cli/src/fixture.rs:374-393"]}
{"id": "C74", "title": "Code and numbers given as text are read as what they say", "statement": "Code given to the command line that begins with 0x or 0X is read as the bytes whose hex is on its first line; a binary file is read as it is; other ASCII text is assembly if it assembles and otherwise hex. In a benchmark fixture, hex with or without prefix between white space is read as that number if it fits the field and refused otherwise; bytes, addresses and hashes keep the value, an address or hash has exactly its length, and nothing but hex is accepted. A recipient without digits is a creation.", "quantifier": "all texts, lengths, numbers, assemblers", "why_tests_cant": "Fixtures are written by tools in one style; odd digit counts, other prefixes and numbers at the limits do not occur in them.", "anchors": ["crates/revmc-cli/src/lib.rs:16-47", "crates/revmc-cli/src/fixture.rs:288-293", "crates/revmc-cli/src/fixture.rs:412-453"]}
{"id": "C75", "title": "The roots that the test runners compare stand for the state and the logs", "statement": "The state root that is computed from the database after a test depends only on the state: not on the order in which accounts and slots are gone through, nor on whether zeros are stored. Two equal roots mean that the same accounts exist with the same nonce, balance, code and slots, and the same logs were emitted, an execution that is an error counting as one without logs.", "quantifier": "all maps of accounts and slots in all orders, all logs; all hash functions and tries without collisions", "why_tests_cant": "Hash maps iterate in one order per run and a wrong root shows as a failing or, worse, passing test.", "anchors": ["crates/revmc-statetest/src/merkle_trie.rs:13-65"]}
{"id": "C76", "title": "A statistics snapshot taken while the backend works reports a number of pending jobs that was true during it", "statement": "stats() may be called on any thread while the backend dispatches and completes jobs. The pending_jobs it reports is the number of jobs in flight at some moment between the start and the end of the call.", "quantifier": "all histories of the backend before, and between the loads of, the snapshot", "why_tests_cant": "The wrong number needs a dispatch and a completion to fall between two loads a few nanoseconds apart.", "anchors": ["crates/revmc-runtime/src/runtime/stats.rs:128-141", "crates/revmc-runtime/src/runtime/backend.rs:382, 544, 561"]}
{"id": "C77", "title": "revmc run --load finds what revmc run --aot wrote", "statement": "A library written by `revmc run X --aot` is the one that `--load` without a path takes, in the same run and in a later run with the same argument and output directory; different arguments do not overwrite each other's library; and `--aot` can write its library for every argument that `run` accepts.", "quantifier": "all arguments, output directories, flags and states of the disk", "why_tests_cant": "The command is not tested, and the combinations of flags are many.", "anchors": ["crates/revmc-cli/src/cmd/run.rs:151-246", "crates/revmc-codegen/src/linker.rs:7-11", "crates/revmc-codegen/src/compiler/mod.rs:951-960"]}
{"id": "C78", "title": "revmc run executes the engines asked for and reports the time per iteration", "statement": "With --interpret no compiled code is executed and with --jit-only no interpreter; each engine that is executed is executed at least n_iters times, none when n_iters is 0; and the reported average is the measured time divided by n_iters.", "quantifier": "all n_iters, flags and measured times", "why_tests_cant": "The command is not tested; the average is wrong only from 2^32 iterations on.", "anchors": ["crates/revmc-cli/src/cmd/run.rs:264-278, 356-368", "crates/revmc-cli/src/fixture.rs:374-376"]}
{"id": "C79", "title": "The linker driver uses the compiler, linker and flags that it was given", "statement": "Linker::link starts the C compiler set last, else that of the variable CC, else cc; it names the output first, passes the linker set last, or lld where supported, and then every flag given to cflags, in order and after the defaults, followed by the objects in order.", "quantifier": "all sequences of calls of the setters, all outputs and objects, both platforms", "why_tests_cant": "The one test sets only the compiler and links one object.", "anchors": ["crates/revmc-codegen/src/linker.rs:12-92"]}
{"id": "C80", "title": "The page written for a graph shows that graph's source and runs nothing in it", "statement": "When the dot command cannot be used, the DOT source is escaped into a template literal of a script in an HTML page. The browser reads back exactly the source; the literal ends where it should, and nothing in the source is evaluated.", "quantifier": "all DOT sources and all text after them", "why_tests_cant": "Wrong escaping shows only for backslashes, backquotes and dollar signs in particular orders.", "anchors": ["crates/revmc-cli/src/cmd/run.rs:283-341"]}
{"id": "C81", "title": "A JIT lookup captures the objects compiled for it and no others", "statement": "jit_function keeps a copy of the object that is compiled during its symbol lookup. Whatever other threads compile at the same time, and however lookups nest, each lookup gets the last object compiled on its thread during it and outside of nested ones, or none; and nothing is ever written to the memory of a lookup that has ended.", "quantifier": "all interleavings of all threads, all nestings, lookups that fail included", "why_tests_cant": "Mixed-up or dangling capture needs nested or concurrent compilation and shows as wrong sizes or memory corruption.", "anchors": ["crates/revmc-llvm/src/lib.rs:169-200, 1049-1066"]}
