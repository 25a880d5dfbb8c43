{
 "claims": [
  {
   "property": "C01",
   "status": "proved",
   "theorems": [
    "CairoM.Instruction.C01_encode_decode",
    "CairoM.Instruction.C01_encode_injective"
   ],
   "note": "Encoding then decoding gives back every instruction; encoding is injective."
  },
  {
   "property": "C02",
   "status": "proved",
   "theorems": [
    "CairoM.Instruction.C02_decode_iff",
    "CairoM.Instruction.C02_decode_empty",
    "CairoM.Instruction.C02_decode_unknown",
    "CairoM.Instruction.C02_decode_wrong_count"
   ],
   "note": "Decode succeeds exactly on encodings; every error branch characterised."
  },
  {
   "property": "C03",
   "status": "proved",
   "theorems": [
    "CairoM.C03_fetch",
    "CairoM.C03_fetch_loaded"
   ],
   "note": "Fetch at any position in the code region returns exactly the laid-out instruction, logs its words and changes no cell."
  },
  {
   "property": "C04",
   "status": "proved",
   "theorems": [
    "CairoM.Json.C04_json_round_trip",
    "CairoM.Json.C04_hex_round_trip",
    "CairoM.Json.C04_hex_is_base16"
   ],
   "note": "JSON hex encoding of M31 values round-trips."
  },
  {
   "property": "C05",
   "status": "partial",
   "theorems": [
    "CairoM.Instruction.C05_size_table",
    "CairoM.Instruction.C05_size_table_unassigned",
    "CairoM.Instruction.C05_words",
    "CairoM.Instruction.C05_max_size",
    "CairoM.Instruction.C05_opcodes_distinct",
    "CairoM.Instruction.C05_opcode_le",
    "CairoM.C05_access_count_partial",
    "CairoM.C05_print_violates"
   ],
   "note": "Size tables proved for every opcode. The declared access count equals the logged accesses for every instruction except the two print instructions, which declare accesses but log none (C05_print_violates)."
  },
  {
   "property": "C06",
   "status": "proved",
   "theorems": [
    "CairoM.MemoryProps.C06_memory_is_array",
    "CairoM.MemoryProps.C06_write_one_cell"
   ],
   "note": "Refinement to a zero-initialised array for every history of operations."
  },
  {
   "property": "C07",
   "status": "proved",
   "theorems": [
    "CairoM.MemoryProps.C07_read_out_of_range",
    "CairoM.MemoryProps.C07_write_out_of_range",
    "CairoM.MemoryProps.C07_write_in_range",
    "CairoM.MemoryProps.C07_read_in_range",
    "CairoM.MemoryProps.C07_u32_store_not_atomic"
   ],
   "note": "Out-of-range accesses are rejected without effect; C07_u32_store_not_atomic records that a u32 store at the last address writes its low half before failing."
  },
  {
   "property": "C08",
   "status": "proved",
   "theorems": [
    "CairoM.MemoryProps.C08_u32_round_trip",
    "CairoM.MemoryProps.C08_bad_limb"
   ],
   "note": "u32 store/load round trip, bad limbs rejected."
  },
  {
   "property": "C09",
   "status": "proved",
   "theorems": [
    "CairoM.MemoryProps.C09_regions_disjoint"
   ],
   "note": "Locals and heap regions never overlap, for every history."
  },
  {
   "property": "C10",
   "status": "proved",
   "theorems": [
    "CairoM.C10_instruction",
    "CairoM.C10_step",
    "CairoM.C10_step_only"
   ],
   "note": "Every handler and every VM step refines the reference semantics Isa.sem, in both directions."
  },
  {
   "property": "C100",
   "status": "partial",
   "theorems": [
    "CairoM.Syntax.C100_target",
    "CairoM.Syntax.C100_no_false_alarm",
    "CairoM.Syntax.C100_partial",
    "CairoM.Syntax.C100_violated"
   ],
   "note": "Exact for constants of the module and constants imported from the module that defines them; re-exported constants are a counterexample (C100_violated). The kind of the definition of the root name is a parameter, given by C80's index."
  },
  {
   "property": "C101",
   "status": "partial",
   "theorems": [
    "CairoM.ComponentAssign.C101_variable",
    "CairoM.ComponentAssign.C101_element_partial"
   ],
   "note": "Proved for variables and components of variables at any depth, for the mid-level code as emitted by the lowering. For elements of arrays the theorem gives the single store that is emitted; the effect of stores is C65. The later in-place update of code generation is C64."
  },
  {
   "property": "C102",
   "status": "partial",
   "theorems": [
    "CairoM.PatternLet.C102_binds",
    "CairoM.PatternLet.C102_no_false_alarm",
    "CairoM.PatternLet.C102_lowered",
    "CairoM.PatternLet.C102_check_partial",
    "CairoM.PatternLet.C102_violated_dropped",
    "CairoM.PatternLet.C102_violated_lowering"
   ],
   "note": "Lowering is proved for patterns of any depth; the check is proved exact for at most two levels of nesting. Violated for three levels (witnesses)."
  },
  {
   "property": "C103",
   "status": "partial",
   "theorems": [
    "CairoM.TypeNames.C103_exact",
    "CairoM.TypeNames.C103_resolves_partial",
    "CairoM.TypeNames.C103_layered_partial",
    "CairoM.TypeNames.C103_determined",
    "CairoM.TypeNames.C103_violated_pointer",
    "CairoM.TypeNames.C103_violated_direct",
    "CairoM.TypeNames.C103_violated_const"
   ],
   "note": "C103_exact: the compiler panics exactly on type expressions that depend on a circular declaration; C103_resolves_partial, C103_layered_partial, C103_determined: in all other cases the type is computed, and it is the only one denoted. Missing: circular declarations (C103_violated_pointer, C103_violated_direct), names of constants (C103_violated_const)."
  },
  {
   "property": "C104",
   "status": "partial",
   "theorems": [
    "CairoM.TypeChecks.C104_declared",
    "CairoM.TypeChecks.C104_undeclared",
    "CairoM.TypeChecks.C104_nested",
    "CairoM.TypeChecks.C104_proper_partial",
    "CairoM.TypeChecks.C104_violated_function",
    "CairoM.TypeChecks.C104_violated_const",
    "CairoM.TypeChecks.C104_violated_nested"
   ],
   "note": "C104_declared, C104_undeclared: names in signatures and structs are reported exactly if they are not declared; C104_nested: which arrays of arrays are reported; C104_proper_partial: types have no errors if names stand for structs and arrays of arrays are where they are checked. Missing: names of functions and constants (C104_violated_function), annotations of constants (C104_violated_const), arrays of arrays elsewhere (C104_violated_nested), function bodies."
  },
  {
   "property": "C11",
   "status": "proved",
   "theorems": [
    "CairoM.C11_binary",
    "CairoM.C11_binary_imm",
    "CairoM.C11_divrem",
    "CairoM.C11_divrem_imm",
    "CairoM.C11_compare",
    "CairoM.C11_compare_imm"
   ],
   "note": "All u32 instructions against BitVec 32."
  },
  {
   "property": "C12",
   "status": "proved",
   "theorems": [
    "CairoM.C12_wide_word",
    "CairoM.C12_assert_fails",
    "CairoM.C12_div_zero",
    "CairoM.C12_div_zero_imm",
    "CairoM.C12_bad_immediate",
    "CairoM.C12_bad_operand",
    "CairoM.C12_felt_div_zero"
   ],
   "note": "Error values for each fault; faults occur exactly when the reference semantics faults (C10)."
  },
  {
   "property": "C13",
   "status": "proved",
   "theorems": [
    "CairoM.C13_call",
    "CairoM.C13_ret",
    "CairoM.C13_call_return"
   ],
   "note": "Balanced call/return for arbitrarily nested activations."
  },
  {
   "property": "C14",
   "status": "proved",
   "theorems": [
    "C14_program_limits_agree",
    "CairoM.C14_limits_agree",
    "CairoM.C14_is_unsegmented"
   ],
   "note": "For any two positive step limits, the run ends the same way, with the same executed states, final memory and access log (segments concatenated), and equals the unsegmented run. Also at the level of run_cairo_program (same return values)."
  },
  {
   "property": "C15",
   "status": "proved",
   "theorems": [
    "CairoM.C15_segments_chain"
   ],
   "note": "Each segment starts from the memory and registers the previous one ended with."
  },
  {
   "property": "C16",
   "status": "partial",
   "theorems": [
    "CairoM.C16_terminates_partial",
    "CairoM.C16_zero_diverges",
    "CairoM.C16_violated"
   ],
   "note": "Violated for limit 0: C16_zero_diverges / C16_violated prove that a run with limit 0 never ends for a program that needs one step. C16_terminates_partial: for every positive limit the run ends whenever the program does."
  },
  {
   "property": "C17",
   "status": "proved",
   "theorems": [
    "CairoM.C17_frame",
    "CairoM.C17_frame_step"
   ],
   "note": "Only the designated cells change."
  },
  {
   "property": "C18",
   "status": "partial",
   "theorems": [
    "CairoM.C18_log"
   ],
   "note": "The log of every step is characterised exactly; the print instructions read without logging (C05_print_violates), so the full statement fails for them."
  },
  {
   "property": "C19",
   "status": "proved",
   "theorems": [
    "CairoM.C19_m31_from_i64",
    "CairoM.C19_congruent"
   ],
   "note": "All integers (so all i64)."
  },
  {
   "property": "C20",
   "status": "proved",
   "theorems": [
    "CairoM.C20_parse_iff",
    "CairoM.C20_terminates",
    "C20_round_trip"
   ],
   "note": "The parser accepts exactly a separately stated grammar; termination shown as never exhausting the recursion bound; printing then parsing is the identity."
  },
  {
   "property": "C21",
   "status": "proved",
   "theorems": [
    "CairoM.Abi.C21_round_trip",
    "CairoM.Abi.C21_ill_typed",
    "CairoM.Abi.C21_round_trip_all",
    "CairoM.Abi.C21_wrong_frame"
   ],
   "note": "All types including arrays and pointers with a length; a pointer without a length decodes as its address, so it is excluded by the hypothesis Sized. Ill-typed values and frames of the wrong size are rejected."
  },
  {
   "property": "C22",
   "status": "partial",
   "theorems": [
    "C22_entry",
    "C22_arguments",
    "C22_large_frame_violated"
   ],
   "note": "C22_entry and C22_arguments hold for frames in the lower half of the address space (fp <= 2^27); C22_large_frame_violated proves that above it an argument can be hidden by the memory regions."
  },
  {
   "property": "C23",
   "status": "partial",
   "theorems": [
    "C23_reserved_partial",
    "C23_sized_partial",
    "C23_violated",
    "C23_length_mismatch_panics"
   ],
   "note": "C23_reserved_partial holds for types without pointers inside array or pointer elements. C23_violated is a concrete argument for which two cells are reserved and six written. C23_length_mismatch_panics: a wrong-length array panics."
  },
  {
   "property": "C24",
   "status": "proved",
   "theorems": [
    "C24_consecutive",
    "C24_partition"
   ],
   "note": "All lengths (u32 additions without overflow)."
  },
  {
   "property": "C25",
   "status": "proved",
   "theorems": [
    "CairoM.Adapter.C25_recovers_execution",
    "CairoM.Adapter.C25_violated_print"
   ],
   "note": "For every finished run and each of its segments; C25_violated_print shows why print instructions are excluded."
  },
  {
   "property": "C26",
   "status": "partial",
   "theorems": [
    "CairoM.Adapter.C26_records_balance_partial",
    "CairoM.Adapter.C26_public_balance_partial",
    "CairoM.Adapter.C26_violated"
   ],
   "note": "The claim is false of the code: C26_violated (a clock update re-emits the initial value). Proved when a cell accessed after a gap of more than 2^20-1 still holds its original value, with and without public entries."
  },
  {
   "property": "C27",
   "status": "partial",
   "theorems": [
    "CairoM.Adapter.C27_clock_difference_partial",
    "CairoM.Adapter.C27_default_limit",
    "CairoM.Adapter.C27_violated_multiple",
    "CairoM.Adapter.C27_violated_same_step"
   ],
   "note": "The claim is false of the code: C27_violated_multiple (gap an exact multiple of 2^20-1) and C27_violated_same_step (same cell twice in a step). Proved for all other gaps, and in full within the default step limit for accesses in different steps."
  },
  {
   "property": "C28",
   "status": "partial",
   "theorems": [
    "CairoM.Adapter.C28_root_of_contents",
    "CairoM.Adapter.C28_root_determined",
    "CairoM.Adapter.C28_binding",
    "CairoM.Adapter.C28_full_refused",
    "CairoM.Adapter.C28_violated_binding",
    "CairoM.Adapter.C28_violated_empty"
   ],
   "note": "Root = root of the complete tree over the contents, hence determined by them; two memories with equal roots and different contents give an explicit collision. False as stated for the empty map (no root, C28_violated_empty), and an injective compression function does not exist: the digest is one field element (C28_violated_binding)."
  },
  {
   "property": "C29",
   "status": "partial",
   "theorems": [
    "CairoM.Adapter.C29_final_contents",
    "CairoM.Adapter.C29_initial_contents",
    "CairoM.Adapter.C29_roots_chain_partial",
    "CairoM.Adapter.C29_consecutive_partial",
    "CairoM.Adapter.C29_violated"
   ],
   "note": "The claim is false of the code: C29_violated (a first write beyond the initial memory becomes part of the initial memory). Proved whenever the next segment does not do that."
  },
  {
   "property": "C30",
   "status": "partial",
   "theorems": [
    "CairoM.Air.StoreFpFp.C30_store_fp_fp_partial",
    "CairoM.Air.StoreFpFp.C30_violated_div",
    "CairoM.Air.StoreFpImm.C30_store_fp_imm_partial",
    "CairoM.Air.StoreFpImm.C30_violated_opcode"
   ],
   "note": "Field arithmetic rows are sound when the divisor is not zero and, for the immediate form, when the opcode column pair names a defined opcode; C30_violated_div and C30_violated_opcode exhibit accepted rows that are not executions."
  },
  {
   "property": "C31",
   "status": "proved",
   "theorems": [
    "CairoM.Air.AssertEqFpImm.C31_assert_eq",
    "CairoM.Air.CallAbsImm.C31_call",
    "CairoM.Air.Ret.C31_ret",
    "CairoM.Air.JmpImm.C31_jmp",
    "CairoM.Air.JnzFpImm.C31_jnz"
   ],
   "note": "Jump, conditional jump, call, return and assertion rows."
  },
  {
   "property": "C32",
   "status": "proved",
   "theorems": [
    "CairoM.Air.StoreImm.C32_store_imm",
    "CairoM.Air.StoreFramePointer.C32_store_frame_pointer",
    "CairoM.Air.DoubleDerefFpImm.C32_double_deref_fp_imm",
    "CairoM.Air.DoubleDerefFpFp.C32_double_deref_fp_fp",
    "CairoM.Air.U32StoreImm.C32_u32_store_imm"
   ],
   "note": "Immediate store (felt and 32-bit), frame-pointer store and the double-dereference rows."
  },
  {
   "property": "C33",
   "status": "proved",
   "theorems": [
    "CairoM.Air.U32StoreAddFpFp.C33_add_fp_fp",
    "CairoM.Air.U32StoreSubFpFp.C33_sub_fp_fp",
    "CairoM.Air.U32StoreAddFpImm.C33_add_fp_imm"
   ],
   "note": "Addition with memory and immediate operand, subtraction."
  },
  {
   "property": "C34",
   "status": "partial",
   "theorems": [
    "CairoM.Air.U32StoreMulFpFp.C34_mul_fp_fp_partial",
    "CairoM.Air.U32StoreMulFpFp.C34_violated_clock",
    "CairoM.Air.U32StoreMulFpImm.C34_mul_fp_imm"
   ],
   "note": "Immediate form proved. Memory form proved when the records of the second operand are older than the row; the circuit omits that check (C34_violated_clock)."
  },
  {
   "property": "C35",
   "status": "partial",
   "theorems": [
    "CairoM.Air.U32StoreDivFpFp.C35_divrem_fp_fp_partial",
    "CairoM.Air.U32StoreDivFpFp.C35_violated_clock",
    "CairoM.Air.U32StoreDivFpImm.C35_divrem_fp_imm"
   ],
   "note": "Immediate form proved. Memory form proved when the records of the divisor are older than the row; the circuit omits that check (C35_violated_clock)."
  },
  {
   "property": "C36",
   "status": "partial",
   "theorems": [
    "CairoM.Air.U32StoreEqFpFp.C36_eq_fp_fp",
    "CairoM.Air.U32StoreLtFpFp.C36_lt_fp_fp",
    "CairoM.Air.U32StoreLtFpImm.C36_lt_fp_imm",
    "CairoM.Air.U32StoreEqFpImm.C36_violated_word",
    "CairoM.Air.U32StoreEqFpImm.C36_violated_modulus",
    "CairoM.Air.U32StoreEqFpImm.C36_unprovable",
    "CairoM.Air.U32StoreEqFpImm.C36_eq_fp_imm_partial"
   ],
   "note": "Equality and order of memory operands and order against an immediate proved. Equality with an immediate is violated in three ways: second word read at the wrong address, comparison modulo P, and no honest row for any other operands."
  },
  {
   "property": "C37",
   "status": "proved",
   "theorems": [
    "CairoM.Air.U32StoreBitwiseFpFp.C37_bitwise_fp_fp",
    "CairoM.Air.U32StoreBitwiseFpImm.C37_bitwise_fp_imm"
   ],
   "note": "All six bitwise opcodes."
  },
  {
   "property": "C38",
   "status": "partial",
   "theorems": [
    "CairoM.Air.StoreLeFpImm.C38_store_le_partial",
    "CairoM.Air.StoreLeFpImm.C38_violated"
   ],
   "note": "Sound except when the operand equals the immediate, where the row also accepts the answer false (C38_violated)."
  },
  {
   "property": "C39",
   "status": "partial",
   "theorems": [
    "CairoM.Air.C39_honest_row_partial",
    "CairoM.Air.C39_padding_row",
    "CairoM.Air.C39_component_trace_partial",
    "CairoM.Air.C39_violated_eq_fp_fp",
    "CairoM.Air.C39_violated_eq_fp_imm",
    "CairoM.Air.C39_violated_eq_witness",
    "CairoM.Air.C39_run_partial",
    "CairoM.Air.C39_violated_same_cell"
   ],
   "note": "Row by row and for whole runs: the trace writers of all opcode components, from the VM run through the adapter, give rows that satisfy every constraint and table lookup and perform exactly the step; padding rows are harmless. Missing: prints, the two u32 equality instructions (counterexamples proved), steps touching a cell twice (counterexample), segments longer than the default limit."
  },
  {
   "property": "C40",
   "status": "proved",
   "theorems": [
    "CairoM.Air.C40_read_after_write"
   ],
   "note": "Read-after-write consistency of the memory argument for any multiset of records; hypotheses: at most P records, no clock within 2^20 of the field size, one initial record per cell at clock 0 (what happens without the clock hypothesis: C41_violated_wrap)."
  },
  {
   "property": "C41",
   "status": "partial",
   "theorems": [
    "CairoM.Air.C41_violated_wrap",
    "CairoM.Air.C41_accepted_run_partial"
   ],
   "note": "Accepted traces with an honest boundary are runs of the reference machine (C41_accepted_run_partial). Missing: the hypotheses Regular, HonestBoundary and NoWrap are not enforced by the constraint system; C41_violated_wrap and C43 show accepted traces that are not runs when they fail."
  },
  {
   "property": "C42",
   "status": "partial",
   "theorems": [
    "CairoM.Air.C42_fetched",
    "CairoM.Air.C42_at_most_one",
    "CairoM.Air.C42_covered_partial",
    "CairoM.Air.C42_violated"
   ],
   "note": "Each opcode belongs to at most one component, every non-print instruction to one, and enabled rows fetch only opcodes of their component. C42_violated: print instructions are executed by the VM but no component row can fetch them."
  },
  {
   "property": "C43",
   "status": "partial",
   "theorems": [
    "CairoM.Air.C43_any_claim_accepted",
    "CairoM.Air.C43_violated",
    "CairoM.Air.C43_honest_claim_partial"
   ],
   "note": "The property is false of the code: C43_any_claim_accepted and C43_violated prove that every public claim with non-zero clock is accepted. C43_honest_claim_partial proves the claim for traces that meet the conditions of C41 (regular rows, honest boundary, no wrap-around), which the constraints do not force."
  },
  {
   "property": "C44",
   "status": "partial",
   "theorems": [
    "CairoM.Lang.C44_function_partial",
    "CairoM.Mir.C44_eval_partial",
    "CairoM.Mir.C44_violated_eq",
    "CairoM.Mir.C44_panics_iff",
    "CairoM.Mir.C44_violated_div",
    "CairoM.Mir.C44_results_canonical",
    "CairoM.Mir.C44_unary_partial",
    "CairoM.Mir.C44_violated_neg_u32"
   ],
   "note": "Literals below P (felt) evaluate like the operator, and folding preserves the result of whole functions (C44_function_partial); the full statement fails: literals P and 0 compare as different although both denote 0 (C44_violated_eq), division by the literal P panics the compiler (C44_violated_div, exact panic condition C44_panics_iff), u32 negation folds in the field (C44_violated_neg_u32)."
  },
  {
   "property": "C45",
   "status": "partial",
   "theorems": [
    "CairoM.Lang.C45_function_partial",
    "CairoM.Mir.C45_simplify_partial",
    "CairoM.Mir.C45_violated"
   ],
   "note": "Every rewrite except 0 - x and 1 / x is proved to preserve the value, and the result of whole functions (C45_function_partial); those two are refuted by C45_violated."
  },
  {
   "property": "C46",
   "status": "partial",
   "theorems": [
    "CairoM.Lang.C46_fuse_partial",
    "CairoM.Lang.C46_simplify_partial",
    "CairoM.Lang.C46_violated_literal",
    "CairoM.Lang.C46_violated_fuse_literals",
    "CairoM.Lang.C46_violated_u32"
   ],
   "note": "Branch simplification and comparison-branch fusion preserve the values returned by every function that does not fault, provided the condition is a felt or boolean and its literals are below P. Violated otherwise: branch on literal P, fused literals, and a u32 compared with zero (end-to-end witness)."
  },
  {
   "property": "C47",
   "status": "proved",
   "theorems": [
    "CairoM.Lang.C47_legalize",
    "CairoM.Lang.C47_comparisons",
    "CairoM.Lang.C47_legal"
   ],
   "note": "Legalisation preserves the result of every function (including faults), removes >, >=, <= from the representation and leaves only operators the code generator accepts."
  },
  {
   "property": "C48",
   "status": "partial",
   "theorems": [
    "CairoM.Codegen.C48_felt_partial",
    "CairoM.Codegen.C48_neg_partial",
    "CairoM.Codegen.C48_deterministic",
    "CairoM.Codegen.C48_violated_literal"
   ],
   "note": "Proved for every field operation and every operand placement when integer literals are below 2^31; C48_violated_literal shows that a literal of 2^31 or more is encoded as a negative immediate (x + 2^31 computes x - 1)."
  },
  {
   "property": "C49",
   "status": "proved",
   "theorems": [
    "CairoM.Codegen.C49_u32"
   ],
   "note": "Every u32 operation of the legal set, every operand placement."
  },
  {
   "property": "C50",
   "status": "proved",
   "theorems": [
    "CairoM.Codegen.C50_connective",
    "CairoM.Codegen.C50_not",
    "CairoM.Codegen.C50_not_integer"
   ],
   "note": "Both connectives and negation; the operands are not the destination (the builder writes the destination before reading them), which the layout guarantees."
  },
  {
   "property": "C51",
   "status": "proved",
   "theorems": [
    "CairoM.Codegen.C51_cast"
   ],
   "note": "Cast u32 to felt: result when representable, trap otherwise."
  },
  {
   "property": "C52",
   "status": "partial",
   "theorems": [
    "CairoM.Codegen.C52_runs",
    "CairoM.Codegen.C52_distinct_partial",
    "CairoM.Codegen.C52_violated_bitwise"
   ],
   "note": "C52_runs: a run of the original code is a run of the de-duplicated code up to the temporaries. C52_distinct_partial: distinct sources for the arithmetic/comparison instructions the pass handles; C52_violated_bitwise shows the pass misses bitwise instructions."
  },
  {
   "property": "C53",
   "status": "proved",
   "theorems": [
    "CairoM.Codegen.C53_instruction",
    "CairoM.Codegen.C53_runs",
    "CairoM.Codegen.C53_converse"
   ],
   "note": "Every instruction and every run, in both directions."
  },
  {
   "property": "C54",
   "status": "proved",
   "theorems": [
    "CairoM.Codegen.C54_layout",
    "CairoM.Codegen.C54_temporary"
   ],
   "note": "Slots assigned to parameters, locals, return area and later temporaries are pairwise disjoint and avoid the saved registers."
  },
  {
   "property": "C55",
   "status": "partial",
   "theorems": [
    "CairoM.Codegen.C55_loaded",
    "CairoM.Codegen.C55_jump",
    "CairoM.Codegen.C55_branch",
    "CairoM.Codegen.C55_call",
    "CairoM.Codegen.C55_step",
    "CairoM.Codegen.C55_violated_names"
   ],
   "note": "Jumps, branches and calls reach the labelled instruction whenever label names are distinct; C55_violated_names: function names of the form f and f_1 make labels clash, so distinctness is a necessary hypothesis."
  },
  {
   "property": "C56",
   "status": "partial",
   "theorems": [
    "CairoM.Codegen.C56_allocation",
    "CairoM.Codegen.C56_blocks",
    "CairoM.Codegen.C56_violated"
   ],
   "note": "Proved whenever at most 2^28 cells are requested in total; C56_violated: beyond that the emitted code has no check and returns bases outside the address space."
  },
  {
   "property": "C57",
   "status": "partial",
   "theorems": [
    "CairoM.Lang.C57_sequence_partial",
    "CairoM.Lang.C57_function_partial",
    "CairoM.Lang.C57_violated_swap",
    "CairoM.Lang.C57_violated_swap_program",
    "CairoM.Lang.C57_violated_literal",
    "CairoM.Lang.C57_violated_self"
   ],
   "note": "Proved for acyclic copies that do not read a destination receiving a literal: for every iteration order of the hash maps the sequence equals the parallel assignment, and phi elimination (with critical-edge splitting) preserves the values returned by every function with liveness and definite-assignment certificates. Refuted for swaps (end-to-end witness), literal sources and self-copies."
  },
  {
   "property": "C58",
   "status": "proved",
   "theorems": [
    "CairoM.Air.C58_bitwise_table",
    "CairoM.Air.C58_range_table",
    "CairoM.Air.C58_bitwise_index"
   ],
   "note": "Exact contents of the bitwise and range tables, and the row index the prover counts a lookup at."
  },
  {
   "property": "C59",
   "status": "partial",
   "theorems": [
    "C59_public_ranges_partial",
    "C59_violated"
   ],
   "note": "Holds when nothing is materialised; C59_violated is a concrete array argument for which the published input range holds the array contents, not the argument words."
  },
  {
   "property": "C60",
   "status": "proved",
   "theorems": [
    "CairoM.Lang.C60_dead_instructions",
    "CairoM.Lang.C60_violated_fault"
   ],
   "note": "Every function that does not fault returns the same values after removal of unused instructions. C60_violated_fault records that the fault of an unused division disappears."
  },
  {
   "property": "C61",
   "status": "partial",
   "theorems": [
    "CairoM.Lang.C61_unreachable_partial",
    "CairoM.Lang.C61_all_reachable_partial",
    "CairoM.Lang.C61_violated"
   ],
   "note": "Proved (including faults) when the reachable blocks contain no phi instruction, and the pass is the identity when all blocks are reachable. C61_violated refutes the general statement: if true/if false with a merge, end-to-end."
  },
  {
   "property": "C62",
   "status": "partial",
   "theorems": [
    "CairoM.Lang.C62_constant_propagation_partial",
    "CairoM.Lang.C62_violated"
   ],
   "note": "Proved for well-typed functions whose calls have at most one result and runs without fault; violated for calls with several results."
  },
  {
   "property": "C63",
   "status": "partial",
   "theorems": [
    "CairoM.Codegen.C63_array_literal_partial",
    "CairoM.Codegen.C63_violated"
   ],
   "note": "Proved for felt arrays without literal zero elements; violated for literal zeros (not written)."
  },
  {
   "property": "C64",
   "status": "partial",
   "theorems": [
    "CairoM.Codegen.C64_violated",
    "CairoM.Codegen.C64_partial",
    "CairoM.Codegen.C64_tuple_partial"
   ],
   "note": "Reading a field and then assigning another field of the struct (or element of the tuple): the value read keeps its words, the updated aggregate has exactly the words of that field replaced, and no other memory changes. Violated when the same field is assigned: the earlier read changes."
  },
  {
   "property": "C65",
   "status": "partial",
   "theorems": [
    "CairoM.Codegen.C65_violated",
    "CairoM.Codegen.C65_load",
    "CairoM.Codegen.C65_store_partial"
   ],
   "note": "Loads proved for every path and index value (C65_load). Stores proved except for one-cell literals through a path with an operand index (C65_store_partial); there the property is violated (C65_violated)."
  },
  {
   "property": "C66",
   "status": "partial",
   "theorems": [
    "CairoM.Codegen.C66_function_partial"
   ],
   "note": "All scalar functions without calls, emitted code before the peephole passes. Missing: calls, composition with the passes and the linker."
  },
  {
   "property": "C67",
   "status": "partial",
   "theorems": [
    "CairoM.Codegen.C67_program_partial",
    "CairoM.Codegen.C67_violated_void",
    "CairoM.Codegen.C67_violated_order",
    "CairoM.Codegen.C67_violated_condition"
   ],
   "note": "C67_program_partial: compileModule + link + load + run + decode against the interpreter with calls, for modules of scalar functions; example_runs is the non-vacuity case (recursive factorial called from a function with a u32 comparison). The full statement is false of the code: label clashes (C55_violated_names), calls without results (C67_violated_void), values used in a block numbered before their computation (C67_violated_order), u32 conditions (C67_violated_condition); these are excluded by explicit hypotheses. Missing: aggregates, pointers, heap, faulting executions."
  },
  {
   "property": "C68",
   "status": "proved",
   "theorems": [
    "CairoM.Lang.C68_copy_propagation"
   ],
   "note": "As stated, for runs that do not fault. A run that faults at a copy (an ill-typed one) is not covered."
  },
  {
   "property": "C69",
   "status": "partial",
   "theorems": [
    "CairoM.Lang.C69_common_subexpressions_partial",
    "CairoM.Lang.C69_violated_call",
    "CairoM.Lang.C69_violated_arrays"
   ],
   "note": "Results of runs that do not fault are kept. Violated for failing runs (unused calls are removed) and for arrays, with compiled witnesses."
  },
  {
   "property": "C70",
   "status": "partial",
   "theorems": [
    "CairoM.Air.C70_memory_committed_partial",
    "CairoM.Air.C70_public_committed_partial",
    "CairoM.Air.C70_violated"
   ],
   "note": "False of the code as it stands (C70_violated). C70_memory_committed_partial and C70_public_committed_partial prove it for traces whose Merkle rows form a hash tree (used rows are linked to their parent, parents are hashes of children, no rows above the root); none of the three is forced by the constraints."
  },
  {
   "property": "C71",
   "status": "partial",
   "theorems": [
    "CairoM.Air.Poseidon2.C71_circuit_sound",
    "CairoM.Air.Poseidon2.C71_circuit_complete",
    "CairoM.Air.Poseidon2.C71_hash_lookups",
    "CairoM.Air.Poseidon2.C71_violated_binding"
   ],
   "note": "Soundness and completeness of the hash component are proved (C71_circuit_sound, C71_circuit_complete, C71_hash_lookups). The binding of parent and children through the lookups is false of the code (C71_violated_binding). The round constants are parameters; that the external crate computes the same permutation is not modelled."
  },
  {
   "property": "C72",
   "status": "partial",
   "theorems": [
    "CairoM.Lower.C72_lowering_partial",
    "CairoM.Lower.C72_lowering_iff_partial",
    "CairoM.Lower.C72_lowering_lazy_partial",
    "CairoM.Lower.C72_violated_copy",
    "CairoM.Lower.C72_violated_break",
    "CairoM.Lower.C72_violated_eager"
   ],
   "note": "Proved for every well-typed scalar function whose lowering leaves no undefined name (a check of the result), with both operands of && and || evaluated, and for lazy && and || when both operands are fault-free; ending, with the same result, and running forever agree in both directions. The unrestricted property is false: C72_violated_copy, C72_violated_break, C72_violated_eager. Not covered: structs, tuples, arrays, pointers, constants."
  },
  {
   "property": "C73",
   "status": "partial",
   "theorems": [
    "CairoM.Pipeline.C73_all_passes_partial",
    "CairoM.Pipeline.C73_source_to_machine_partial"
   ],
   "note": "End-to-end for the scalar fragment, with and without optimisation (all passes, including scalar replacement of aggregates: C73_all_passes_partial), on programs accepted by the evaluable checks checkProgram and fitsCheck; returning runs only; both operands of && and || are evaluated in the assumption (the conclusion gives the short-circuit meaning too)."
  },
  {
   "property": "C74",
   "status": "partial",
   "theorems": [
    "C74_expression",
    "C74_expression_conv",
    "C74_program",
    "C74_program_conv",
    "C74_stable",
    "C74_unambiguous",
    "C74_bound",
    "C74_documented_partial",
    "C74_violated_or_and"
   ],
   "note": "Complete for the parser as it is: every tree that satisfies the precedence condition is read back from its token sequence (C74_expression, C74_program), every accepted token sequence is, up to redundant separators and parentheses, that of the tree returned (C74_expression_conv, C74_program_conv), printing and parsing again is stable, trees are determined by their tokens, the recursion bound is irrelevant. Partial because the documented precedence of && over || is violated (C74_violated_or_and); C74_documented_partial covers expressions that do not mix the two."
  },
  {
   "property": "C75",
   "status": "partial",
   "theorems": [
    "CairoM.Syntax.C75_same_program_partial",
    "CairoM.Syntax.C75_idempotent_partial",
    "CairoM.Syntax.C75_canonical",
    "CairoM.Syntax.C75_rejected",
    "CairoM.Syntax.C75_violated_const_type",
    "CairoM.Syntax.C75_violated_tuple",
    "CairoM.Syntax.C75_violated_condition",
    "CairoM.Syntax.C75_violated_while",
    "CairoM.Syntax.C75_violated_call",
    "CairoM.Syntax.C75_violated_use"
   ],
   "note": "Same program and idempotence proved for every text without comments, every line width and every indentation width, for programs that use none of the constructs excluded by `plain`; counterexamples for each excluded construct (types of constants, one-element tuples, conditions that need parentheses, imports of a whole module). Canonical output and rejection proved without the restriction. Comments are not modelled."
  },
  {
   "property": "C76",
   "status": "proved",
   "theorems": [
    "CairoM.Syntax.C76_read",
    "CairoM.Syntax.C76_read_conv",
    "CairoM.Syntax.C76_unique",
    "CairoM.Syntax.C76_layout"
   ],
   "note": "Both directions: every spelling of a token sequence (with white space and comments) is read as this sequence, and every text that is read spells what is read."
  },
  {
   "property": "C77",
   "status": "proved",
   "theorems": [
    "CairoM.Syntax.C77_value",
    "CairoM.Syntax.C77_overflow",
    "CairoM.Syntax.C77_iff",
    "CairoM.Syntax.C77_text"
   ],
   "note": "Value, overflow, and the converse: a literal is accepted only if it consists of a base prefix, digits of the base and a suffix."
  },
  {
   "property": "C78",
   "status": "partial",
   "theorems": [
    "C78_parsed_partial",
    "C78_parsed_no_stray_break",
    "CairoM.Syntax.C78_unreachable",
    "CairoM.Syntax.C78_reachable_partial",
    "CairoM.Syntax.C78_no_stray_break",
    "CairoM.Syntax.C78_violated_step"
   ],
   "note": "Reported statements are never reached, and no break or continue leaves a loop that is not there (full). Converse proved for all positions except the step of a for loop, for which it is false (C78_violated_step). C78_parsed_*: for every text that parses, without conditions on for loops."
  },
  {
   "property": "C79",
   "status": "partial",
   "theorems": [
    "C79_parsed_partial",
    "CairoM.Syntax.C79_returns_partial",
    "CairoM.Syntax.C79_violated",
    "CairoM.Syntax.C79_violated_rejects",
    "CairoM.Pipeline.C79_violated_machine"
   ],
   "note": "Proved for functions in which no loop is left by break (C79_parsed_partial: for every text that parses); false otherwise: C79_violated, with the effect on the machine in C79_violated_machine."
  },
  {
   "property": "C80",
   "status": "partial",
   "theorems": [
    "CairoM.Syntax.C80_resolution_partial",
    "CairoM.Syntax.C80_same_name_partial",
    "CairoM.Syntax.C80_undeclared_partial",
    "CairoM.Syntax.C80_unused_partial",
    "CairoM.Syntax.C80_violated_own",
    "CairoM.Syntax.C80_violated_body"
   ],
   "note": "Every use and the numbering of the definitions agree with lexical scope, and a name is reported as undeclared or unused exactly when it is, for all items and all nestings except for loops whose body is a bare declaration (false there: C80_violated_body). A constant used in its own value is not reported (C80_violated_own)."
  },
  {
   "property": "C81",
   "status": "partial",
   "theorems": [
    "CairoM.Syntax.C81_accepted_partial",
    "CairoM.Syntax.C81_placed_partial",
    "CairoM.Syntax.C81_violated_left",
    "CairoM.Syntax.C81_violated_zero",
    "CairoM.Syntax.C81_violated_assigned",
    "CairoM.Syntax.C81_violated_truth",
    "CairoM.Syntax.C81_violated_literal",
    "CairoM.Syntax.C81_violated_modulus",
    "CairoM.Syntax.C81_violated_minus",
    "CairoM.Syntax.C81_violated_rejects"
   ],
   "note": "Proved for accepted files of the scalar fragment in which the contextual and the context-free types agree (a decidable condition, and a sufficient condition on the text); the violations show that the checks accept files outside of it that are compiled wrongly."
  },
  {
   "property": "C82",
   "status": "partial",
   "theorems": [
    "C82_each",
    "C82_independent_partial",
    "C82_violated"
   ],
   "note": "Proved when the first functions of the two files have the same return type or no literal without suffix decides the type of a returned expression; violated otherwise."
  },
  {
   "property": "C83",
   "status": "partial",
   "theorems": [
    "CairoM.Syntax.C83_parsed_partial",
    "CairoM.Syntax.C83_text_to_machine_partial"
   ],
   "note": "Scalar fragment, one file, all passes; under the decidable conditions of C73 and C81 on the program."
  },
  {
   "property": "C84",
   "status": "partial",
   "theorems": [
    "CairoM.Wasm.Examples.C84_violated_comparison_result",
    "CairoM.Wasm.Examples.C84_violated_comparison_operand",
    "CairoM.Wasm.Examples.C84_violated_conditional_return",
    "CairoM.Wasm.Examples.C84_violated_void_call",
    "CairoM.Wasm.Examples.C84_violated_return_from_loop",
    "CairoM.Wasm.Examples.C84_violated_table",
    "CairoM.Wasm.C84_lowering_partial"
   ],
   "note": "Lowering of WebAssembly functions: for every function in the flat data-flow form that meets the decidable condition Func.supported, the lowered MIR function returns what the WebAssembly function returns, for all arguments, control flow (labels, loops with carried values, branches out of several loops) and numbers of iterations. Missing: functions outside the condition (comparison results used as integers, conditional returns, calls without exactly one result, code after a branch), with witnesses, and memory accesses (C86)."
  },
  {
   "property": "C85",
   "status": "partial",
   "theorems": [
    "CairoM.Wasm.Examples.C85_violated_fibonacci",
    "CairoM.Wasm.Examples.C85_violated_branch",
    "CairoM.Wasm.Examples.C85_violated_comparison",
    "CairoM.Wasm.C85_wasm_to_machine_partial",
    "CairoM.C85_all_passes_partial"
   ],
   "note": "From WebAssembly modules to the machine: composition of C84 with all passes (C85_all_passes_partial includes scalar replacement of aggregates), code generation, linking and execution, for all modules that pass the decidable checks. Missing: modules for which a stage is wrong (witnesses: Fibonacci numbers become powers of two, comparison results, branch on the low half), faulting runs, memory."
  },
  {
   "property": "C86",
   "status": "partial",
   "theorems": [
    "CairoM.Wasm.Examples.C86_violated_halfword",
    "CairoM.Wasm.Examples.C86_violated_odd",
    "CairoM.Wasm.Examples.C86_violated_sum",
    "CairoM.Wasm.Examples.C86_violated_trap",
    "CairoM.Wasm.C86_load_partial",
    "CairoM.Wasm.C86_store_partial",
    "CairoM.Wasm.C86_history_partial",
    "CairoM.Wasm.C86_load_machine",
    "CairoM.Wasm.C86_store_machine"
   ],
   "note": "For address operands and offsets that are multiples of four, inside a memory of at most 2^29 bytes, for every history of accesses; the code of a single access also for the emission in any state of the lowering, and for the machine code of the load and store instructions when the frame ends below the memory. Violated for other addresses and for accesses outside the memory, which do not trap."
  },
  {
   "property": "C87",
   "status": "partial",
   "theorems": [
    "CairoM.C87_violated_store",
    "CairoM.C87_violated_nested",
    "CairoM.C87_violated_tuple_field",
    "CairoM.Mir.Sroa.C87_sroa_partial",
    "CairoM.Mir.Sroa.C87_flat_partial",
    "CairoM.Mir.Sroa.C87_scalar_unchanged",
    "CairoM.Mir.Sroa.C87_pipeline_unchanged"
   ],
   "note": "C87_flat_partial: for every well-typed function whose aggregates contain no aggregates and which builds no arrays, the pass succeeds and keeps the results, for all arguments, callees and run lengths. C87_sroa_partial: for any nesting, provided no name removed by the pass is used in its result (decidable check). C87_scalar_unchanged, C87_pipeline_unchanged: identity on functions without aggregates. Violated in general: C87_violated_store (wrong value), C87_violated_nested and C87_violated_tuple_field (code generator fails). Arrays and memory accesses have no meaning in the specification; faulting runs are not covered."
  },
  {
   "property": "C88",
   "status": "proved",
   "theorems": [
    "CairoM.Imports.C88_total",
    "CairoM.Imports.C88_cycle",
    "CairoM.Imports.C88_exact",
    "CairoM.Imports.C88_deterministic",
    "CairoM.Imports.C88_order"
   ],
   "note": "For every graph and every order of the hash map: the search ends without panic, reports a chain of imports that leads back to its start exactly if there is one (the same one for every order of the map), and otherwise every module is analysed once and after the modules it imports. Strings are an arbitrary linear order; the hash maps are association lists with distinct keys."
  },
  {
   "property": "C89",
   "status": "partial",
   "theorems": [
    "CairoM.LsDelta.C89_after_edit_partial",
    "CairoM.LsDelta.C89_one_project_partial",
    "CairoM.LsDelta.C89_violated_two_projects",
    "CairoM.LsDelta.C89_violated_open",
    "CairoM.LsDelta.C89_violated_removed",
    "CairoM.LsDelta.C89_violated_swap"
   ],
   "note": "Proved: the first request after an edit, in any history without database swaps and with any number of projects, is answered with the current diagnostics; for one project that loses no module, all answers are current. Violated by a second project, by reloading, by removed modules and by database swaps (witnesses). The database is abstract (revision, modules, diagnostics)."
  },
  {
   "property": "C90",
   "status": "partial",
   "theorems": [
    "CairoM.LsText.C90_round_trip",
    "CairoM.LsText.C90_reported_partial",
    "CairoM.LsText.C90_received_partial",
    "CairoM.LsText.C90_violated_astral",
    "CairoM.LsText.C90_violated_return",
    "CairoM.LsText.C90_violated_beyond",
    "CairoM.LsText.C90_spec"
   ],
   "note": "Proved for all texts: the two conversions are inverse to each other; they agree with the protocol for places that no lone carriage return precedes and no character beyond the basic plane on the same line. Violated otherwise, and for columns beyond the end of a line (witnesses)."
  },
  {
   "property": "C91",
   "status": "partial",
   "theorems": [
    "CairoM.LsText.C91_partial",
    "CairoM.LsText.C91_violated",
    "CairoM.LsText.C91_violated_return"
   ],
   "note": "Proved for all documents without a final line end and without lone carriage returns. For every document with a final line end the property is refuted: the line end is left behind."
  },
  {
   "property": "C92",
   "status": "partial",
   "theorems": [
    "CairoM.LsSwap.C92_no_swap_partial",
    "CairoM.LsSwap.C92_swap_partial",
    "CairoM.LsSwap.C92_violated_other_file",
    "CairoM.LsSwap.C92_violated_reopened",
    "CairoM.LsSwap.C92_violated_lost_edit"
   ],
   "note": "Proved: for all histories without database swaps, the analysed text of an opened file is the editor's once the project has been loaded; an uninterrupted swap changes no analysed text. Violated by edits after a swap and during a swap (witnesses). One project; Salsa inputs are numbered in the order of creation."
  },
  {
   "property": "C93",
   "status": "partial",
   "theorems": [
    "CairoM.Modules.C93_partial",
    "CairoM.Modules.C93_violated_colon",
    "CairoM.Modules.C93_violated_subdirectory",
    "CairoM.Modules.C93_violated_directory"
   ],
   "note": "Proved for entry points directly in the source directory, names without colons and readable source files. Violated for file names with colons, entry points in subdirectories, and directories named like source files. The directory walk (ignored files) is a parameter."
  },
  {
   "property": "C94",
   "status": "proved",
   "theorems": [
    "CairoM.Codegen.C94_struct",
    "CairoM.Codegen.C94_tuple"
   ],
   "note": "Code emitted for a literal, executed with the ISA semantics; struct fields in any order, tuple elements of any types. Hypotheses: operands are in the frame outside the cells of the literal, fields are listed once."
  },
  {
   "property": "C95",
   "status": "partial",
   "theorems": [
    "CairoM.Source.C95_partial",
    "CairoM.Source.C95_unfinished_partial",
    "CairoM.Source.C95_violated"
   ],
   "note": "For constants whose expressions mention constants only (any nesting, calls allowed): the lowered function returns what the function means when constants are evaluated once, and runs forever when it does. Violated for local constants that mention a variable."
  },
  {
   "property": "C96",
   "status": "partial",
   "theorems": [
    "CairoM.Syntax.C96_no_false_alarm",
    "CairoM.Syntax.C96_partial",
    "CairoM.Syntax.C96_top_level",
    "CairoM.Syntax.C96_violated"
   ],
   "note": "No false alarm and exact counting at the top level for every file; the equivalence for files without for loops; the violation inside for loops as a theorem."
  },
  {
   "property": "C97",
   "status": "proved",
   "theorems": [
    "CairoM.Syntax.C97_module",
    "CairoM.Syntax.C97_item",
    "CairoM.Syntax.C97_sound",
    "CairoM.Syntax.C97_resolved",
    "CairoM.Syntax.C97_unique"
   ],
   "note": "The check of imports and the way from an imported name to its definition, for every crate; the root scope is that of C80's model of the semantic index. The positions of the reports are not modelled."
  },
  {
   "property": "C98",
   "status": "partial",
   "theorems": [
    "CairoM.Syntax.C98_call_sound",
    "CairoM.Syntax.C98_call_partial",
    "CairoM.Syntax.C98_violated_call",
    "CairoM.Syntax.C98_violated_const"
   ],
   "note": "Every lowered call reaches the checked function; calls of functions imported from their own module are lowered. Re-exported functions and imported constants are counterexamples (C98_violated_call, C98_violated_const)."
  },
  {
   "property": "C99",
   "status": "partial",
   "theorems": [
    "CairoM.Modules.C99_navigation",
    "CairoM.Modules.C99_partial",
    "CairoM.Modules.C99_violated"
   ],
   "note": "Exact answer for every file; right for files directly in the source directory, wrong in subdirectories (C99_violated)."
  }
 ]
}