{
 "claims": [
  {
   "property": "C01",
   "status": "partial",
   "theorems": [
    "Verif.C01_jumpdests_partial",
    "Verif.C01_jumpdests_fails"
   ],
   "note": "Equivalence with the EVM scan proved for all codes before Amsterdam and for Amsterdam codes without a PUSH byte right after DUPN/SWAPN/EXCHANGE. Outside that class the code is wrong: C01_jumpdests_fails gives a witness."
  },
  {
   "property": "C02",
   "status": "proved",
   "theorems": [
    "Verif.C02_tiling",
    "Verif.C02_increasing",
    "Verif.C02_pc_maps"
   ],
   "note": ""
  },
  {
   "property": "C03",
   "status": "proved",
   "theorems": [
    "Verif.C03_push_value"
   ],
   "note": ""
  },
  {
   "property": "C04",
   "status": "proved",
   "theorems": [
    "Verif.C04_stop_padding"
   ],
   "note": ""
  },
  {
   "property": "C05",
   "status": "partial",
   "theorems": [
    "Verif.C05_single_roundtrip",
    "Verif.C05_single_ranges",
    "Verif.C05_pair_decode",
    "Verif.C05_pair_encode_sound",
    "Verif.C05_pair_complete_fails",
    "Verif.C05_pair_complete_partial",
    "Verif.C05_stack_io"
   ],
   "note": "Round trips and ranges proved over the complete byte domain. encode_pair rejects the 91 valid pairs with m >= 17: C05_pair_complete_fails is the witness, C05_pair_complete_partial characterises exactly what is encodable."
  },
  {
   "property": "C06",
   "status": "proved",
   "theorems": [
    "Verif.C06_handle_stable",
    "Verif.C06_handle_eq_iff"
   ],
   "note": ""
  },
  {
   "property": "C07",
   "status": "proved",
   "theorems": [
    "Verif.C07_gating",
    "Verif.C07_monotone",
    "Verif.C07_base_gas"
   ],
   "note": ""
  },
  {
   "property": "C08",
   "status": "proved",
   "theorems": [
    "Verif.C08_fold_exact",
    "Verif.C08_unknown_operand",
    "Verif.C08_pc_value"
   ],
   "note": ""
  },
  {
   "property": "C09",
   "status": "proved",
   "theorems": [
    "Verif.C09_peephole_exact"
   ],
   "note": ""
  },
  {
   "property": "C10",
   "status": "proved",
   "theorems": [
    "Verif.C10_inline_exact",
    "Verif.C10_builtin_exact",
    "Verif.C10_complete"
   ],
   "note": ""
  },
  {
   "property": "C11",
   "status": "partial",
   "theorems": [
    "Verif.C11_cost_exact",
    "Verif.C11_budget_partial",
    "Verif.C11_zero",
    "Verif.C11_accounted",
    "Verif.C11_over_budget_unknown",
    "Verif.C11_budget_fails"
   ],
   "note": "Budget invariant proved over every history of block interpretations for every limit below u64::MAX. For limit u64::MAX it is false (saturating check, wrapping counter): C11_budget_fails."
  },
  {
   "property": "C12",
   "status": "proved",
   "theorems": [
    "Verif.C12_join_sound",
    "Verif.C12_join_exact",
    "Verif.C12_join_top",
    "Verif.C12_wellformed",
    "Verif.C12_idempotent",
    "Verif.C12_bounded_changes"
   ],
   "note": ""
  },
  {
   "property": "C13",
   "status": "proved",
   "theorems": [
    "Verif.C13_join_sound",
    "Verif.C13_history_sound",
    "Verif.C13_depth",
    "Verif.C13_changed_flag",
    "Verif.C13_unchanged_covers"
   ],
   "note": ""
  },
  {
   "property": "C14",
   "status": "proved",
   "theorems": [
    "Verif.C14_exit_sound",
    "Verif.C14_operands_sound",
    "Verif.C14_output_sound",
    "Verif.C14_unknown_entry"
   ],
   "note": ""
  },
  {
   "property": "C15",
   "status": "partial",
   "theorems": [
    "Verif.C15_resolved_partial",
    "Verif.C15_next_partial",
    "Verif.C15_resolved_fails"
   ],
   "note": "Holds for executions with at most 64 words on the stack at every JUMPDEST and after every JUMPI; false otherwise: the abstract stack is cut to 64 entries, a block popping more is taken for unreachable (witness deepCode). Also proved: the compiled jump goes where the EVM goes."
  },
  {
   "property": "C16",
   "status": "partial",
   "theorems": [
    "Verif.C16_dead_partial",
    "Verif.C16_dead_fails"
   ],
   "note": "Holds for executions with at most 64 words on the stack at every JUMPDEST and after every JUMPI; false otherwise: the abstract stack is cut to 64 entries, a block popping more is taken for unreachable (witness deepCode)."
  },
  {
   "property": "C17",
   "status": "proved",
   "theorems": [
    "Verif.C17_bytes_completes",
    "Verif.C17_bytes",
    "Verif.C17_targets",
    "Verif.C17_follow",
    "Verif.C17_compress",
    "Verif.C17_round_earlier",
    "Verif.C17_rounds",
    "Verif.C17_dedup",
    "Verif.C17_completes"
   ],
   "note": "Redirect chains end, at an unredirected earlier block; one lookup suffices after every refresh; after the whole pass every live static target leads to a block start and no live instruction is redirected; the pass completes (no unwrap fails, no loop runs forever) when live multi-target jumps have their targets recorded."
  },
  {
   "property": "C18",
   "status": "partial",
   "theorems": [
    "Verif.C18_merge_partial",
    "Verif.C18_merge_fails",
    "Verif.C18_constants",
    "Verif.C18_bytes_partial",
    "Verif.C18_bytes_constants",
    "Verif.C18_pass_partial",
    "Verif.C18_constants_pass"
   ],
   "note": "Proved for programs whose immediates print unambiguously (handle 0 or low byte not 0x00/0x80), per round (C18_merge_partial) and for the pass as a whole with the control-flow refreshes between rounds (C18_pass_partial): every block has a counterpart where the redirects lead, with the same opcodes and immediates, the same effect on every stack, and jumps to the counterparts of the original targets; constants of a block others were merged into revert to the entry-independent pass. In general the fingerprint is ambiguous: C18_merge_fails gives bytecode whose two different blocks are merged. Every analysed bytecode meets the pass's starting condition (C18_bytes_partial)."
  },
  {
   "property": "C19",
   "status": "partial",
   "theorems": [
    "Verif.C19_block_partial",
    "Verif.C19_prefix_partial",
    "DseFail.C19_block_fails",
    "DseFail.C19_operands_complete"
   ],
   "note": "Proved per block: the compiled block after the pass produces the same observable events, stack length and (unless it ends the call) stack as the EVM, also for executions stopping inside the block, provided recorded operands are complete (C19_operands_complete gives that when the block is interpreted from a deep enough abstract stack). C19_block_fails: with more than 64 words at entry a short operand record is read misaligned and a live SWAPN is skipped."
  },
  {
   "property": "C20",
   "status": "proved",
   "theorems": [
    "Verif.C20_check_exact",
    "Verif.C20_no_spurious",
    "Verif.C20_partition"
   ],
   "note": ""
  },
  {
   "property": "C21",
   "status": "partial",
   "theorems": [
    "Verif.C21_observers_last",
    "Verif.C21_section_sum",
    "Verif.C21_charge_exact_partial",
    "Verif.C21_charge_exact_fails",
    "Verif.C21_exp_once",
    "Verif.C21_exp_amount"
   ],
   "note": "Section charge equals the per-instruction sum when the section total fits u32 (always with standard gas tables for practical code); C21_charge_exact_fails shows the saturation at u32::MAX undercharges with a custom gas schedule."
  },
  {
   "property": "C22",
   "status": "partial",
   "theorems": [
    "Verif.C22_skip_partial",
    "Verif.C22_known_partial",
    "Verif.C22_ensure_partial",
    "Verif.C22_direct_partial",
    "Verif.C22_terminates",
    "MemExample.C22_fails"
   ],
   "note": "Data-flow fixpoint over arbitrary blocks: soundness of the computed sizes on every path, exactness of skip/direct/general checks for MLOAD/MSTORE/MSTORE8, termination. Partial: fails for LOG1..LOG4 whose last topic is a known 64-bit constant (C22_fails: a store writes out of bounds after a skipped check); for the CALL family the recorded size is only shown harmless, not at most the actual one."
  },
  {
   "property": "C23",
   "status": "proved",
   "theorems": [
    "Verif.C23_fast_iff",
    "Verif.C23_fast_in_bounds",
    "Verif.C23_resize_request",
    "Verif.C23_access_in_memory"
   ],
   "note": ""
  },
  {
   "property": "C24",
   "status": "proved",
   "theorems": [
    "Spec.C24_sections",
    "Spec.C24_positions"
   ],
   "note": "Code generation and execution of straight-line sections modelled together; every lowering of translate_inst that touches the stack. What the analyses claim about constants is a hypothesis (proved sound in C14); the instruction's own effect is an arbitrary function."
  },
  {
   "property": "C25",
   "status": "proved",
   "theorems": [
    "Verif.C25_dynamic_jump",
    "Verif.C25_dynamic_invalid",
    "Verif.C25_multi_jump"
   ],
   "note": ""
  },
  {
   "property": "C26",
   "status": "proved",
   "theorems": [
    "Verif.Backend.C26_decision",
    "Verif.Backend.C26_own_program",
    "Verif.Backend.C26_blocking"
   ],
   "note": "Every history of lookups, commands, results, clears and sweeps. Map operations are atomic steps; a lookup probe that finds its shard locked is a parameter."
  },
  {
   "property": "C27",
   "status": "proved",
   "theorems": [
    "Verif.Backend.C27_bounded"
   ],
   "note": ""
  },
  {
   "property": "C28",
   "status": "partial",
   "theorems": [
    "Verif.Backend.C28_single_flight_fails",
    "Verif.Backend.C28_single_flight_partial",
    "Verif.Backend.C28_without_clear_partial"
   ],
   "note": "Proved except when, since the last clear, a late result of an older generation was discarded for the key or the key was evicted as idle (both remove the entry of the running compilation). C28_single_flight_fails is a concrete history with two compilations of one key in flight; C28_without_clear_partial is the full claim without clears and idle limit."
  },
  {
   "property": "C29",
   "status": "proved",
   "theorems": [
    "Verif.Backend.C29_clear_all",
    "Verif.Backend.C29_clear_resident"
   ],
   "note": "Every interleaving; clear_resident may reload artifacts that were in the store at the clear (statement refined)."
  },
  {
   "property": "C30",
   "status": "partial",
   "theorems": [
    "Verif.Backend.C30_pending_partial",
    "Verif.Backend.C30_pending_fails"
   ],
   "note": "The reported number equals jobs in flight plus late results discarded so far; the drift is a defect (C30_pending_fails)."
  },
  {
   "property": "C31",
   "status": "proved",
   "theorems": [
    "Verif.Backend.C31_never_early",
    "Verif.Backend.C31_on_time",
    "Verif.Backend.C31_tracked"
   ],
   "note": "For thresholds up to u32::MAX (the counter is a saturating u32); larger thresholds never fire."
  },
  {
   "property": "C32",
   "status": "partial",
   "theorems": [
    "Verif.Backend.C32_conservation",
    "Verif.Backend.C32_blocked",
    "Verif.Backend.C32_release_partial",
    "Verif.Backend.C32_release_fails",
    "Verif.Backend.C32_answer_partial",
    "Verif.Backend.C32_answer_fails"
   ],
   "note": "Nothing is lost or answered twice (C32_conservation) and a blocked caller's key is being compiled (C32_blocked). Missing: a late result of an older generation answers callers of the new one (C32_release_fails); an idle sweep drops blocked callers (C32_answer_fails)."
  },
  {
   "property": "C33",
   "status": "proved",
   "theorems": [
    "Verif.Backend.C33_metadata",
    "Verif.Backend.C33_hit",
    "Verif.Backend.C33_sweep",
    "Verif.Backend.C33_not_due",
    "Verif.Backend.C33_only_sweeps"
   ],
   "note": ""
  },
  {
   "property": "C34",
   "status": "partial",
   "theorems": [
    "Verif.Pause.C34_race_fails",
    "Verif.Pause.C34_drop_fails",
    "Verif.Pause.C34_depth",
    "Verif.Pause.C34_settled_partial"
   ],
   "note": "Holds when pause/resume calls do not overlap and no command is dropped, under every delay, helper restart and other traffic (C34_settled_partial); the reported depth is right under every interleaving (C34_depth). The full claim is false: C34_race_fails (a resume that decides first and sends last overtakes a pause) and C34_drop_fails (full command channel)."
  },
  {
   "property": "C35",
   "status": "partial",
   "theorems": [
    "Verif.Store.C35_paths",
    "Verif.Store.C35_sequential",
    "Verif.Store.C35_failed_write_fails",
    "Verif.Store.C35_race_fails",
    "Verif.Store.C35_mix_fails",
    "Verif.Store.C35_overlap_partial"
   ],
   "note": "File names injective over all keys; sequential histories refine a map, bytes included; overlapping calls on different keys too (C35_overlap_partial). False for overlapping calls on one key (C35_race_fails, C35_mix_fails) and when an overwrite fails half-way (C35_failed_write_fails)."
  },
  {
   "property": "C36",
   "status": "proved",
   "theorems": [
    "Verif.HelperIo.C36_own_answer",
    "Verif.HelperIo.C36_once",
    "Verif.HelperIo.C36_ids_fresh",
    "Verif.HelperIo.C36_crash",
    "Verif.HelperIo.C36_no_stuck",
    "Verif.HelperIo.C36_timeout_unpaused"
   ],
   "note": "Every interleaving of callers, reader thread and helper messages; time is abstracted to time-out events, the wire encoding is trusted."
  },
  {
   "property": "C37",
   "status": "proved",
   "theorems": [
    "Verif.Helper.C37_gas_list",
    "Verif.Helper.C37_malformed",
    "Verif.Helper.C37_settings",
    "Verif.Helper.C37_dump_dir_lossy",
    "Verif.Helper.C37_bad_bytes"
   ],
   "note": "Settings and gas list round trip for every configuration; wire encoding (wincode) trusted. A non-UTF-8 dump directory is altered: C37_dump_dir_lossy."
  },
  {
   "property": "C38",
   "status": "partial",
   "theorems": [
    "Verif.JitEvm.C38_same_engine",
    "Verif.JitEvm.C38_same_engine_during",
    "Verif.JitEvm.C38_callback_partial",
    "Verif.JitEvm.C38_callback_fails"
   ],
   "note": "Proved for the backend-driven JitEvm (every session, nesting and timing). The map/callback JitEvm of the context crate asks its callback on every run: C38_callback_fails; it holds when the callback is consistent (C38_callback_partial)."
  },
  {
   "property": "C39",
   "status": "proved",
   "theorems": [
    "Verif.Asm.C39_labels",
    "Verif.Asm.C39_terminates"
   ],
   "note": ""
  },
  {
   "property": "C40",
   "status": "proved",
   "theorems": [
    "Verif.Asm.C40_roundtrip",
    "Verif.Asm.C40_parser",
    "Verif.Asm.C40_fixed_literal"
   ],
   "note": ""
  },
  {
   "property": "C41",
   "status": "proved",
   "theorems": [
    "Verif.Builtins.C41_call",
    "Verif.Builtins.C41_failed_call",
    "Verif.Builtins.C41_call_unpayable",
    "Verif.Builtins.C41_create"
   ],
   "note": ""
  },
  {
   "property": "C42",
   "status": "proved",
   "theorems": [
    "Verif.Builtins.C42_guards",
    "Verif.Builtins.C42_child_static",
    "Verif.Builtins.C42_static_tree",
    "Verif.Builtins.C42_staticcall_child"
   ],
   "note": ""
  },
  {
   "property": "C43",
   "status": "proved",
   "theorems": [
    "Verif.Builtins.C43_calldataload",
    "Verif.Builtins.C43_calldataload_const",
    "Verif.Builtins.C43_returndatacopy",
    "Verif.Builtins.C43_returndatacopy_bounds",
    "Verif.Builtins.C43_blockhash"
   ],
   "note": ""
  },
  {
   "property": "C44",
   "status": "partial",
   "theorems": [
    "Verif.C44_exit_partial",
    "Verif.C44_check_partial",
    "InspectExample.C44_return_fails",
    "InspectExample.C44_check_fails"
   ],
   "note": "Exits by STOP, INVALID, SELFDESTRUCT and non-constant RETURN/REVERT proved for every block after all passes; constant-operand RETURN/REVERT and checks after skipped stores are refuted with witnesses. Failures inside builtins are not modelled."
  },
  {
   "property": "C45",
   "status": "proved",
   "theorems": [
    "Verif.Helper.C45_cpus"
   ],
   "note": ""
  },
  {
   "property": "C46",
   "status": "proved",
   "theorems": [
    "Verif.Helper.C46_first",
    "Verif.Helper.C46_one"
   ],
   "note": ""
  },
  {
   "property": "C47",
   "status": "proved",
   "theorems": [
    "Verif.JitEvm.C47_fork",
    "Verif.JitEvm.C47_backend_answers"
   ],
   "note": "For transactions started through JitEvm's own entry points, which invalidate the cache; running a revm handler directly on the wrapper bypasses invalidate_cache and is outside the model."
  },
  {
   "property": "C48",
   "status": "partial",
   "theorems": [
    "Verif.C48_completes_partial",
    "DseExample.C48_completes_fails",
    "Verif.C48_short_partial"
   ],
   "note": "Proved for blocks whose stack needs fit the 16-bit section counters; for whole contracts C48_short_partial: every contract of up to 10878 bytes on every fork before Amsterdam compiles (parsing, all passes, deduplication, translation of PUSH). C48_completes_fails: 10923 LOG4 instructions make the pass panic."
  },
  {
   "property": "C49",
   "status": "partial",
   "theorems": [
    "DseFail.C49_known_partial",
    "PushFail.C49_known_fails",
    "Verif.C49_bytes_partial"
   ],
   "note": "Proved for blocks without undecodable immediates, under any later interpretations, and for whole contracts through all passes and deduplication (C49_bytes_partial, C60_compiles_partial); C49_known_fails: DUPN with an invalid immediate followed by PUSH0 leaves a live PUSH without a recorded value."
  },
  {
   "property": "C50",
   "status": "partial",
   "theorems": [
    "Verif.C50_constants_partial",
    "Verif.C50_constants_fails"
   ],
   "note": "Holds for executions with at most 64 words on the stack at every JUMPDEST and after every JUMPI; false otherwise: the abstract stack is cut to 64 entries, a block popping more is taken for unreachable (witness deepCode)."
  },
  {
   "property": "C51",
   "status": "proved",
   "theorems": [
    "Verif.Asm.C51_lexemes",
    "Verif.Asm.C51_alphabet",
    "Verif.Asm.C51_unique",
    "Verif.Asm.C51_layout",
    "Verif.Asm.C51_lossless"
   ],
   "note": ""
  },
  {
   "property": "C52",
   "status": "proved",
   "theorems": [
    "Verif.Asm.C52_expansion",
    "Verif.Asm.C52_source",
    "Verif.Asm.C52_anywhere"
   ],
   "note": ""
  },
  {
   "property": "C53",
   "status": "partial",
   "theorems": [
    "Verif.Asm.C53_roundtrip_partial",
    "Verif.Asm.C53_roundtrip_fails"
   ],
   "note": "Proved without EIP-8024 instructions; false with them: DUPN/SWAPN/EXCHANGE are printed with the raw immediate but assembled from the stack index (e6 80 comes back as e6 ef)."
  },
  {
   "property": "C54",
   "status": "partial",
   "theorems": [
    "Verif.C54_enters_partial",
    "Verif.C54_halts_partial",
    "Verif.C54_invalid_partial",
    "Verif.C54_stack_partial",
    "Verif.C54_immediate_partial",
    "Verif.C54_outcome_partial",
    "Verif.C54_halts_fails",
    "Verif.C54_compiles_partial"
   ],
   "note": "Simulation in both directions for executions with at most 64 words on the stack at every JUMPDEST and after every JUMPI; false otherwise (the compiled deepCode stops elsewhere). Not covered: gas, deduplication, memory sections, blocks whose stack heights span more than 32767 (for the failing cases only)."
  },
  {
   "property": "C55",
   "status": "partial",
   "theorems": [
    "Verif.C55_enters_partial",
    "Verif.C55_halts_partial",
    "Verif.C55_unknown_partial",
    "Verif.C55_invalid_partial",
    "Verif.C55_fails_alike_partial",
    "Verif.C55_outOfGas_partial",
    "Verif.C55_outcome_partial",
    "Verif.C55_halts_fails"
   ],
   "note": "Exact remaining gas in both directions for executions with at most 64 words on the stack at every JUMPDEST and after every JUMPI (false otherwise: C55_halts_fails), if the static gas of the program fits 32 bits. Deduplication: C71. Not covered: memory sections (C22), metering switched off."
  },
  {
   "property": "C56",
   "status": "partial",
   "theorems": [
    "Verif.C56_memory_partial",
    "Verif.C56_next_partial",
    "Verif.C56_table",
    "WholeMemExample.C56_memory_fails"
   ],
   "note": "For executions with at most 64 words on the stack at every JUMPDEST and after every JUMPI that pay for their memory, if no LOG1..LOG4 has a last topic known to be a 64-bit constant (false otherwise: C56_memory_fails). Operands are those of the execution (C54). Not covered: deduplication, running out of gas while growing, what copies and calls write (any function of the right size)."
  },
  {
   "property": "C57",
   "status": "proved",
   "theorems": [
    "Verif.C57_frames",
    "Verif.C57_step",
    "Verif.C57_call",
    "Verif.C57_create",
    "Verif.C57_isolation",
    "Verif.C57_constants",
    "C57Example.C57_bound"
   ],
   "note": "For total gas up to 2^55; above, revm's saturating memory cost is not the Yellow Paper's and growing can panic (C57_bound). revm's shared memory, gas parameters and the hand-over between frames are transcribed (not in /repo). Logs are those handed to the host: that the host drops those of reverted frames is not covered. State gas of EIP-8037 is left out here (C41)."
  },
  {
   "property": "C58",
   "status": "partial",
   "theorems": [
    "Verif.C58_end",
    "Verif.C58_ends",
    "Verif.C58_resume",
    "Verif.C58_halts_partial",
    "Verif.C58_invalid_partial",
    "Verif.C58_stack_partial",
    "Verif.C58_outcome_partial",
    "Verif.C58_halts_fails"
   ],
   "note": "C58_end, C58_ends and C58_resume hold without restriction: suspending and resuming is the same as calls in one step. The statements about the EVM inherit C54's restriction to executions with at most 64 words on the stack at a JUMPDEST or right after a JUMPI (false otherwise: C58_halts_fails). What the callee does is any answer of the world (for memory see C57). Not covered: deduplication, gas, a caller that does not push a result or fails the frame instead."
  },
  {
   "property": "C59",
   "status": "proved",
   "theorems": [
    "Verif.Access.C59_access",
    "Verif.Access.C59_run",
    "Verif.Access.C59_lookups"
   ],
   "note": "Base gas through the model of the opcode table (info.rs), then the builtin; against a specification with whole costs. revm's journal, gas parameters and static gas table are transcribed and trusted; EXTCODECOPY and the account access of CALL are not covered here; the balance moved by a self-destruct is left out. Relies on: the database answers, the executing account has been accessed, a random value exists from the Merge on, fewer than 2^64 blobs (C59_lookups needs only the second)."
  },
  {
   "property": "C60",
   "status": "partial",
   "theorems": [
    "Verif.C60_enters_partial",
    "Verif.C60_halts_partial",
    "Verif.C60_invalid_partial",
    "Verif.C60_stack_partial",
    "Verif.C60_immediate_partial",
    "Verif.C60_outcome_partial",
    "Verif.C60_halts_fails",
    "Verif.C60_compiles_partial"
   ],
   "note": "Simulation in both directions, through a program that keeps all blocks and carries the merged analysis results. Beyond the limits of C54 (64 words, gas, memory sections, spans over 32767 in the failing cases): immediates that print unambiguously (see C18). Without unambiguous immediates false: C60_halts_fails, a compiled contract returns 0x505080 where the EVM returns 1."
  },
  {
   "property": "C61",
   "status": "partial",
   "theorems": [
    "Verif.Session.C61_pointer_partial",
    "Verif.Session.C61_loaded",
    "Verif.Session.C61_compiles",
    "Verif.Session.C61_ids",
    "Verif.Session.C61_stays",
    "Verif.Session.C61_free_partial",
    "Verif.Session.C61_safe_partial",
    "Verif.Session.C61_finalized",
    "Verif.Session.C61_clear",
    "Verif.Session.C61_object",
    "Verif.Session.C61_translates",
    "Verif.Session.C61_pointer_fails",
    "Verif.Session.C61_safe_fails",
    "Verif.Session.C61_free_fails"
   ],
   "note": "C61_loaded, C61_ids, C61_stays, C61_finalized, C61_translates, C61_clear, C61_object hold for all call sequences; C61_compiles when no name is used twice before a clear. The partial theorems need a caller that uses no name twice before a clear or that clears after a failed jit_function: otherwise false (C61_pointer_fails, C61_safe_fails). C61_free_partial is about functions separated by a clear; functions of one module are freed together (C61_free_fails). LLVM's ORC is trusted as described in Model/Session. The JIT memory of other compilers in the process is arbitrary but fixed during the session."
  },
  {
   "property": "C62",
   "status": "partial",
   "theorems": [
    "Verif.Workers.C62_held",
    "Verif.Workers.C62_distinct",
    "Verif.Workers.C62_others",
    "Verif.Workers.C62_panics",
    "Verif.Workers.C62_reclaimed_partial",
    "Verif.Workers.C62_reclaimed_all",
    "Verif.Workers.C62_links",
    "Verif.Workers.C62_compiles_partial",
    "Verif.Workers.C62_compiles_fails",
    "Verif.Workers.C62_retries_fails",
    "Verif.Workers.C62_reclaimed_fails"
   ],
   "note": "C62_held, C62_distinct, C62_others, C62_panics, C62_reclaimed_all and C62_links hold for all executions. C62_reclaimed_partial needs that LLVM never failed after a module was added (otherwise false: C62_reclaimed_fails), C62_compiles_partial in addition that no program of the same name is held (otherwise false: C62_compiles_fails, C62_retries_fails). A job and a drop are atomic steps; ORC is trusted as in C61. Which programs the backend holds is C26-C33."
  },
  {
   "property": "C63",
   "status": "partial",
   "theorems": [
    "Verif.Attrs.C63_params_partial",
    "Verif.Attrs.C63_initialises",
    "Verif.Attrs.C63_noreturn",
    "Verif.Attrs.C63_argmem_partial",
    "Verif.Attrs.C63_argmem_fails",
    "Verif.Attrs.C63_nofree_partial",
    "Verif.Attrs.C63_nofree_fails",
    "Verif.Attrs.C63_writeonly_fails",
    "Verif.Attrs.C63_slots",
    "Verif.Attrs.C63_constant_operands"
   ],
   "note": "C63_slots, C63_constant_operands, C63_initialises and C63_noreturn hold without exception. C63_params_partial excludes writeonly on the constant-key SLOAD (false: C63_writeonly_fails); C63_argmem_partial shows no writes elsewhere, and no access elsewhere without a context parameter (full claim false: C63_argmem_fails); C63_nofree_partial covers builtins without a writable context (others false: C63_nofree_fails). Bodies are trees of accesses written from the source; attributes about aliasing, threads and unwinding are not expressed."
  },
  {
   "property": "C64",
   "status": "proved",
   "theorems": [
    "X86.C64_x86_call",
    "X86.C64_x86_return",
    "X86.C64_x86_exit",
    "Arm.C64_arm_call",
    "Arm.C64_arm_return",
    "Arm.C64_arm_exit"
   ],
   "note": "Instruction-level model of both trampolines. The compiled function is quantified over: any state it may return or abort in, given that it respects the calling convention and leaves the trampoline's frame and the saved stack pointer alone. The semantics of the eight instruction forms is trusted."
  },
  {
   "property": "C65",
   "status": "proved",
   "theorems": [
    "Verif.EvmWord.C65_u256",
    "Verif.EvmWord.C65_word",
    "Verif.EvmWord.C65_big_endian",
    "Verif.EvmWord.C65_little_endian",
    "Verif.EvmWord.C65_slices",
    "Verif.EvmWord.C65_address",
    "Verif.EvmWord.C65_usize",
    "Verif.EvmWord.C65_stack",
    "Verif.EvmWord.C65_set"
   ],
   "note": "Both byte orders. ruint's limb layout and from_be_slice panic are modelled from its documentation; the view of the interpreter's Vec as a buffer is not modelled."
  },
  {
   "property": "C66",
   "status": "partial",
   "theorems": [
    "Verif.CallIf.C66_action",
    "Verif.CallIf.C66_state",
    "Verif.CallIf.C66_transparent",
    "Verif.CallIf.C66_reports",
    "Verif.CallIf.C66_selfdestruct_fails",
    "Verif.CallIf.C66_selfdestruct_partial"
   ],
   "note": "C66_selfdestruct_partial: the reported destruction is the one that happened if its journal entry is the last; otherwise false (C66_selfdestruct_fails). Everything else without exception. revm's process_next_action is an arbitrary function."
  },
  {
   "property": "C67",
   "status": "partial",
   "theorems": [
    "Verif.BuiltinSyms.C67_once",
    "Verif.BuiltinSyms.C67_kept",
    "Verif.BuiltinSyms.C67_addresses",
    "Verif.BuiltinSyms.C67_link_fails",
    "Verif.BuiltinSyms.C67_link_partial",
    "Verif.BuiltinSyms.C67_whole",
    "Verif.BuiltinSyms.C67_settled"
   ],
   "note": "C67_link_partial: code links if no other thread is between announcing and defining one of its builtins; otherwise false (C67_link_fails). Duplicates, addresses, persistence and the settled state hold for all interleavings."
  },
  {
   "property": "C68",
   "status": "proved",
   "theorems": [
    "Verif.Runner.C68_test",
    "Verif.Runner.C68_suite",
    "Verif.Runner.C68_success",
    "Verif.Runner.C68_failure",
    "Verif.Runner.C68_keepGoing",
    "Verif.Runner.C68_ends"
   ],
   "note": "The EVM's execution of a test is an arbitrary function. Set-up of configuration, block and transaction, and the list of skipped files, are not modelled."
  },
  {
   "property": "C69",
   "status": "partial",
   "theorems": [
    "Verif.Chain.C69_post",
    "Verif.Chain.C69_passes",
    "Verif.Chain.C69_verdict_partial",
    "Verif.Chain.C69_verdict_fails",
    "Verif.Chain.C69_rejected_partial",
    "Verif.Chain.C69_rejected_fails",
    "Verif.Chain.C69_hashes_partial",
    "Verif.Chain.C69_hashes_fails",
    "Verif.Chain.C69_pays",
    "Verif.Chain.C69_reward",
    "Verif.Chain.C69_fork",
    "Verif.Chain.C69_files"
   ],
   "note": "Full claims refuted by witnesses: refused transactions are only printed (C69_verdict_fails; C69_verdict_partial assumes the EVM refuses none), rejected blocks pay rewards (C69_rejected_fails; C69_rejected_partial covers Paris and Shanghai without withdrawals), header-less blocks overwrite a hash (C69_hashes_fails; C69_hashes_partial assumes headers). Block access lists are not modelled."
  },
  {
   "property": "C70",
   "status": "proved",
   "theorems": [
    "Verif.Bld.C70_iconst",
    "Verif.Bld.C70_iconst_fits",
    "Verif.Bld.C70_uconst",
    "Verif.Bld.C70_bool",
    "Verif.Bld.C70_iconst256",
    "Verif.Bld.C70_compare",
    "Verif.Bld.C70_compare_imm",
    "Verif.Bld.C70_compare_imm_unsigned",
    "Verif.Bld.C70_arith_imm",
    "Verif.Bld.C70_bits_imm",
    "Verif.Bld.C70_add",
    "Verif.Bld.C70_sub",
    "Verif.Bld.C70_switch"
   ],
   "note": "Relative to LLVM's integer instructions meaning the bit-vector ones. C70_switch assumes the keys fit the type of the index; beside it an example where they do not."
  },
  {
   "property": "C71",
   "status": "partial",
   "theorems": [
    "Verif.C71_enters_partial",
    "Verif.C71_halts_partial",
    "Verif.C71_unknown_partial",
    "Verif.C71_invalid_partial",
    "Verif.C71_fails_alike_partial",
    "Verif.C71_outOfGas_partial",
    "Verif.C71_outcome_partial",
    "Verif.C71_halts_fails"
   ],
   "note": "Exact remaining gas in both directions, with the limits of C55 (64 words, static gas in 32 bits, no memory sections) and C60 (unambiguous immediates; false without: C71_halts_fails, 949 against 958 gas left). STOP is taken to be free, as in the real tables, since the STOP that completes open code is."
  },
  {
   "property": "C72",
   "status": "partial",
   "theorems": [
    "Verif.Diff.C72_compare",
    "Verif.Diff.C72_fields",
    "Verif.Diff.C72_verdict",
    "Verif.Diff.C72_total",
    "Verif.Diff.C72_keep_going",
    "Verif.Diff.C72_all_files_fails",
    "Verif.Diff.C72_all_files_partial"
   ],
   "note": "Verdict, counts and the comparison are proved in full. Partial because the last sentence is false: a file that cannot be read or parsed is passed over (C72_all_files_fails); C72_all_files_partial shows that only the printed counts tell. Which tests are chosen is a filter on flags; how the flags follow from file names and JSON is not modelled."
  },
  {
   "property": "C73",
   "status": "partial",
   "theorems": [
    "Verif.Diff.C73_load",
    "Verif.Diff.C73_load_only",
    "Verif.Diff.C73_load_own",
    "Verif.Diff.C73_library_fails",
    "Verif.Diff.C73_library_partial",
    "Verif.Diff.C73_sanity_fails",
    "Verif.Diff.C73_sanity_partial"
   ],
   "note": "Loading by compilation is proved in full, for any hash. From a library it is false with two contracts (C73_library_fails) and proved with one; the sanity check is false as stated (C73_sanity_fails) and characterised exactly by C73_sanity_partial."
  },
  {
   "property": "C74",
   "status": "partial",
   "theorems": [
    "Verif.ReadCode.C74_prefixed",
    "Verif.ReadCode.C74_hex_file",
    "Verif.ReadCode.C74_hex_only",
    "Verif.ReadCode.C74_binary",
    "Verif.ReadCode.C74_text",
    "Verif.ReadCode.C74_upper_fails",
    "Verif.ReadCode.C74_number",
    "Verif.ReadCode.C74_number_only",
    "Verif.ReadCode.C74_bytes",
    "Verif.ReadCode.C74_bytes_only_fails",
    "Verif.ReadCode.C74_bytes_only_partial",
    "Verif.ReadCode.C74_array",
    "Verif.ReadCode.C74_kind_fails",
    "Verif.ReadCode.C74_kind_partial"
   ],
   "note": "Proved for all texts, except that the prefix 0X is refused for code (C74_upper_fails), x12 is read as bytes (C74_bytes_only_fails, C74_bytes_only_partial) and the recipient 0X is not a creation (C74_kind_fails, C74_kind_partial). UTF-8 and the assembler are parameters; const-hex's decode is an assumption of the model."
  },
  {
   "property": "C75",
   "status": "proved",
   "theorems": [
    "Verif.StateRoot.C75_compare",
    "Verif.StateRoot.C75_checked",
    "Verif.StateRoot.C75_storage",
    "Verif.StateRoot.C75_storage_separates",
    "Verif.StateRoot.C75_same",
    "Verif.StateRoot.C75_separates",
    "Verif.StateRoot.C75_roots"
   ],
   "note": "Both directions, with keccak, RLP and tries as injective parameters (collision freedom is the assumption under which roots are compared at all). How revm's cache yields the accounts (trie_account) is not modelled."
  },
  {
   "property": "C76",
   "status": "partial",
   "theorems": [
    "Verif.Backend.C76_snapshot_partial",
    "Verif.Backend.C76_quiet",
    "Verif.Backend.C76_snapshot_fails"
   ],
   "note": "Bounds by the jobs in flight at the first and the last load, for every interleaving; that the number was true at some moment is refuted (C76_snapshot_fails). Loads in program order."
  },
  {
   "property": "C77",
   "status": "partial",
   "theorems": [
    "Verif.RunCmd.C77_same_run",
    "Verif.RunCmd.C77_later_run_partial",
    "Verif.RunCmd.C77_later_run_fails",
    "Verif.RunCmd.C77_apart",
    "Verif.RunCmd.C77_writes_partial",
    "Verif.RunCmd.C77_inline_fails",
    "Verif.RunCmd.C77_absolute_fails"
   ],
   "note": "Same run in full; later runs only without -o; writing only for catalogue benchmarks. The remaining cases fail in the code (C77_later_run_fails, C77_inline_fails, C77_absolute_fails). Paths without .. resolution."
  },
  {
   "property": "C78",
   "status": "partial",
   "theorems": [
    "Verif.RunBench.C78_interpret",
    "Verif.RunBench.C78_jit_only_partial",
    "Verif.RunBench.C78_jit_only_fails",
    "Verif.RunBench.C78_enough",
    "Verif.RunBench.C78_average_partial",
    "Verif.RunBench.C78_average_fails"
   ],
   "note": "--interpret and the number of executions in full; --jit-only except for one iteration, the average below 2^32 iterations. The rest fails in the code (C78_jit_only_fails, C78_average_fails)."
  },
  {
   "property": "C79",
   "status": "proved",
   "theorems": [
    "Verif.Linker.C79_compiler",
    "Verif.Linker.C79_arguments",
    "Verif.Linker.C79_not_replaced"
   ],
   "note": "The command line, for every sequence of setter calls; running it is outside the model. cflags adds to earlier flags, contrary to its comment (C79_not_replaced)."
  },
  {
   "property": "C80",
   "status": "partial",
   "theorems": [
    "Verif.DotHtml.C80_source_partial",
    "Verif.DotHtml.C80_return_fails",
    "Verif.DotHtml.C80_script_fails"
   ],
   "note": "For every source without carriage returns, which are read as line feeds (C80_return_fails). The script element around the literal is not escaped for (C80_script_fails)."
  },
  {
   "property": "C81",
   "status": "proved",
   "theorems": [
    "Verif.ObjCapture.C81_own_objects",
    "Verif.ObjCapture.C81_no_dangling"
   ],
   "note": "All interleavings and nestings. That LLJIT compiles on the thread that looks up is trusted, as in the code's comment."
  }
 ]
}