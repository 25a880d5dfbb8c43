{"id": "C01", "title": "Instruction encoding round trip", "statement": "Encoding any instruction to its list of M31 words and decoding that list again yields exactly the same instruction; hence two different instructions never share an encoding.", "quantifier": "every instruction variant and every choice of field-element operands", "why_tests_cant": "there are 39 variants with up to five 31-bit operands each; tests sample a handful of operands", "anchors": ["crates/common/src/instruction.rs:Instruction::to_smallvec", "crates/common/src/instruction.rs:TryFrom<SmallVec<[M31; INSTRUCTION_MAX_SIZE]>> for Instruction"]}
{"id": "C02", "title": "Instruction decoding is exact", "statement": "A list of M31 words decodes to an instruction only if it is exactly that instruction's encoding; the empty list, an unknown opcode and a wrong operand count are each rejected with the specific documented error, so a decode never silently drops or invents a word.", "quantifier": "every list of field elements of any length", "why_tests_cant": "the rejected inputs are an infinite set; tests exercise a few malformed lists", "anchors": ["crates/common/src/instruction.rs:TryFrom<SmallVec<[M31; INSTRUCTION_MAX_SIZE]>> for Instruction", "crates/common/src/instruction.rs:InstructionError"]}
{"id": "C03", "title": "Instruction fetch returns the stored instruction", "statement": "If a program's instructions are laid out as memory words (four M31 limbs per word, zero padded) and loaded, then fetching at the address of any instruction returns exactly that instruction's words, reports exactly the words it occupies as accesses, and changes no cell.", "quantifier": "every program, every instruction position in it, every surrounding memory content", "why_tests_cant": "program layouts and mixed one/two-word instruction sequences are unbounded", "anchors": ["crates/common/src/instruction.rs:Instruction::to_qm31_vec", "crates/runner/src/memory/mod.rs:Memory::get_instruction"]}
{"id": "C04", "title": "Compiled-program JSON hex round trip", "statement": "Serialising an instruction to the JSON list of hex strings and reading it back yields the same instruction, and the hex text of every field element parses back to that element.", "quantifier": "every instruction and every field element", "why_tests_cant": "2^31 values per operand; tests use a few", "anchors": ["crates/common/src/instruction.rs:impl Serialize for Instruction", "crates/common/src/instruction.rs:impl Deserialize for Instruction"]}
{"id": "C05", "title": "Instruction size and access-count tables agree with the encodings", "statement": "For every instruction: the per-opcode size table equals the length of its encoding, its size in memory words is that length divided by four rounded up, no encoding is longer than INSTRUCTION_MAX_SIZE, opcodes are pairwise distinct between variants, and the declared number of data memory accesses equals the number of data accesses its execution logs.", "quantifier": "every instruction and every machine state in which it executes without error", "why_tests_cant": "the tables are macro generated and used by three crates; tests check a few rows and no execution", "anchors": ["crates/common/src/instruction.rs:instructions!", "crates/common/src/instruction.rs:Instruction::memory_accesses", "crates/common/src/instruction.rs:OPCODE_SIZE_TABLE"]}
{"id": "C06", "title": "VM memory behaves as one zero-initialised array", "statement": "The two-ended VM memory (a growing low region and a growing high region) is observationally one array of 2^28 words initialised to zero: a successful write changes exactly the addressed cell and a read returns the last value written there, or zero if never written.", "quantifier": "every reachable memory, address, value and any interleaving of reads and writes", "why_tests_cant": "address space 2^28 with arbitrary histories; growth of two regions toward each other has many orderings", "anchors": ["crates/runner/src/memory/mod.rs:Memory::insert_no_trace", "crates/runner/src/memory/mod.rs:Memory::get_qm31_no_trace"]}
{"id": "C07", "title": "Out-of-range accesses are rejected without effect", "statement": "Every read or write whose address exceeds the maximum address 2^28-1 fails with an address error and leaves the memory contents and access log unchanged; every write at an address in range succeeds.", "quantifier": "every memory state, address in the field, value", "why_tests_cant": "boundary in a 2^31 address field, in every state", "anchors": ["crates/runner/src/memory/mod.rs:Memory::validate_address", "crates/runner/src/memory/mod.rs:Memory::insert", "crates/runner/src/memory/mod.rs:Memory::get_data"]}
{"id": "C08", "title": "u32 values survive memory", "statement": "Storing any 32-bit unsigned value at an address and loading it back gives the same value; loading a u32 from cells whose limbs exceed 16 bits is an error; the store touches only the two cells.", "quantifier": "every u32 value, address and memory state", "why_tests_cant": "2^32 values times all states", "anchors": ["crates/runner/src/memory/mod.rs:Memory::insert_u32", "crates/runner/src/memory/mod.rs:Memory::get_u32"]}
{"id": "C09", "title": "Stack and heap regions never overlap", "statement": "Whatever sequence of writes a program performs, the low region and the high region together never exceed the address space, so no address is ever served by both regions.", "quantifier": "every sequence of in-range writes from the empty memory", "why_tests_cant": "schedules of writes are unbounded; collision happens only after very large sequences", "anchors": ["crates/runner/src/memory/mod.rs:Memory::insert_no_trace"]}
{"id": "C10", "title": "Each instruction implements its documented meaning", "statement": "Executing any single instruction in any machine state has exactly the effect (new pc, new fp, new value of every memory cell) given by an independent reference semantics over an abstract memory map, including each error outcome.", "quantifier": "every instruction, operand, register value and memory", "why_tests_cant": "39 opcodes times the whole state space; aliasing of operand cells included", "anchors": ["crates/runner/src/vm/mod.rs:VM::step", "crates/runner/src/vm/instructions/store.rs", "crates/runner/src/vm/instructions/call.rs", "crates/runner/src/vm/instructions/jnz.rs", "crates/runner/src/vm/instructions/jump.rs", "crates/runner/src/vm/instructions/assert.rs"]}
{"id": "C11", "title": "u32 instructions compute modular 32-bit arithmetic", "statement": "The u32 add/sub/mul/div-rem/eq/lt/and/or/xor instructions, on any two u32 values in memory (or one in memory and one immediate), store exactly the mathematical result modulo 2^32 (quotient and remainder satisfying q*d+r=n, r<d), even when destination and sources overlap exactly.", "quantifier": "all pairs of 32-bit values, all addresses", "why_tests_cant": "2^64 operand pairs", "anchors": ["crates/runner/src/vm/instructions/store.rs:u32_store_add_fp_fp", "crates/runner/src/vm/instructions/store.rs:u32_store_div_rem_fp_fp", "crates/runner/src/vm/instructions/store.rs:u32_store_lt_fp_imm"]}
{"id": "C12", "title": "Failed instructions are reported, never mis-executed", "statement": "Division by zero on u32, out-of-range immediates, limbs above 16 bits, wide words used as felts, and failed assertions each produce an error and no next state.", "quantifier": "every state in which the fault condition holds", "why_tests_cant": "fault conditions are regions of a huge state space", "anchors": ["crates/runner/src/vm/instructions/store.rs", "crates/runner/src/vm/instructions/assert.rs", "crates/runner/src/vm/instructions/mod.rs:InstructionExecutionError"]}
{"id": "C13", "title": "Call and return restore the caller", "statement": "After a call, if the callee does not overwrite the two saved cells and executes ret with its own frame pointer, control resumes at the instruction after the call with the caller's frame pointer, for nested calls of any depth.", "quantifier": "every call site, frame offset, target and callee behaviour preserving the two saved cells", "why_tests_cant": "call depth is unbounded", "anchors": ["crates/runner/src/vm/instructions/call.rs:call_abs_imm", "crates/runner/src/vm/instructions/call.rs:ret", "crates/runner/src/vm/state.rs"]}
{"id": "C14", "title": "Segmentation does not change the computation", "statement": "Running a program with any per-segment step limit of at least one produces the same concatenated execution trace, the same final registers and the same final memory as running it unsegmented.", "quantifier": "every program, entry point, arguments and every step limit >= 1", "why_tests_cant": "step limits and run lengths are unbounded", "anchors": ["crates/runner/src/vm/mod.rs:VM::run_from_entrypoint", "crates/runner/src/vm/mod.rs:VM::execute", "crates/runner/src/vm/mod.rs:VM::finalize_segment"]}
{"id": "C15", "title": "Segments chain", "statement": "Every finished segment executed at most the step limit, each segment starts in exactly the registers and memory in which the previous one ended, and its recorded trace ends with its final registers.", "quantifier": "every run and step limit >= 1", "why_tests_cant": "histories are unbounded", "anchors": ["crates/runner/src/vm/mod.rs:VM::execute", "crates/runner/src/vm/mod.rs:VM::finalize_segment"]}
{"id": "C16", "title": "Every step limit makes progress", "statement": "A run of a program that halts terminates for every step limit. (Violated: a limit of zero never executes a step and the segment loop never ends.)", "quantifier": "every program that halts unsegmented and every step limit", "why_tests_cant": "non-termination cannot be observed by a finite test", "anchors": ["crates/runner/src/vm/mod.rs:VM::run_from_entrypoint", "crates/runner/src/vm/mod.rs:VM::execute"]}
{"id": "C17", "title": "Instructions touch only the cells they name", "statement": "A step changes no memory cell other than those the instruction's operands designate; every other cell keeps its value.", "quantifier": "every instruction, state and address", "why_tests_cant": "quantifies over all 2^28 addresses", "anchors": ["crates/runner/src/vm/instructions/store.rs", "crates/runner/src/vm/instructions/call.rs"]}
{"id": "C18", "title": "The access log is complete and truthful", "statement": "After every step the log has grown by the instruction words followed by exactly the data cells the instruction read or wrote, in the documented order, each with the value the cell has right after that access.", "quantifier": "every instruction and machine state", "why_tests_cant": "the prover relies on the log for every step of every program", "anchors": ["crates/runner/src/memory/mod.rs:Memory::get_data", "crates/runner/src/memory/mod.rs:Memory::insert", "crates/runner/src/vm/mod.rs:VM::step"]}
{"id": "C19", "title": "Signed integers map to the field correctly", "statement": "Any signed 64-bit argument is mapped to the canonical field element congruent to it modulo 2^31-1.", "quantifier": "all i64 values", "why_tests_cant": "2^64 inputs", "anchors": ["crates/common/src/abi_codec.rs:m31_from_i64"]}
{"id": "C20", "title": "Command-line argument round trip", "statement": "Printing any argument value (number, boolean, nested list, nested struct) in the documented syntax with any amount of whitespace between tokens, and parsing it, gives back the same value; the parser terminates on every input and never accepts trailing characters.", "quantifier": "every value tree and every input string", "why_tests_cant": "nesting depth and strings are unbounded", "anchors": ["crates/common/src/abi_codec.rs:parse_cli_arg"]}
{"id": "C21", "title": "ABI call encoding round trip", "statement": "For every ABI type without pointers and every value of that type, encoding as call arguments produces exactly the number of slots the type occupies and decoding those slots returns the original value; ill-typed values are rejected.", "quantifier": "every ABI type tree and value", "why_tests_cant": "types and values nest without bound", "anchors": ["crates/runner/src/lib.rs:encode_value_for_call", "crates/runner/src/lib.rs:decode_value_from_return_slots", "crates/common/src/program.rs:AbiType::call_slot_size"]}
{"id": "C22", "title": "Entry-point calling convention", "statement": "At the first step of a run every argument slot is at the address where compiled code reads that parameter, the saved frame pointer and return address are in the two cells below the frame, and return slots do not overlap argument slots.", "quantifier": "every argument count, return count, frame address and argument values", "why_tests_cant": "counts unbounded; off-by-one in offsets only visible for some counts", "anchors": ["crates/runner/src/vm/mod.rs:VM::run_from_entrypoint", "crates/runner/src/memory/mod.rs:Memory::insert_entrypoint_call", "crates/compiler/codegen/src/layout.rs:FunctionLayout::allocate_parameters_with_sizes"]}
{"id": "C23", "title": "Array arguments are materialised without overlap", "statement": "For every list of arguments, the space reserved for array contents equals the space written, so array contents never overlap each other or the caller frame.", "quantifier": "every list of ABI parameters and values", "why_tests_cant": "nesting unbounded", "anchors": ["crates/runner/src/lib.rs:calculate_array_materialization_size", "crates/runner/src/lib.rs:calculate_array_materialization_size_with_value", "crates/runner/src/lib.rs:encode_value_for_call"]}
{"id": "C24", "title": "Public address ranges partition the public memory", "statement": "Program, input and output ranges are consecutive, disjoint and have the lengths of the program, the argument slots and the return slots; every public address is in exactly one.", "quantifier": "every program length, number of arguments and returns", "why_tests_cant": "arithmetic over all sizes", "anchors": ["crates/common/src/program.rs:PublicAddressRanges::new"]}
{"id": "C25", "title": "The prover input recovers the execution", "statement": "Replaying a VM run's trace and access log through the prover adapter yields one record per executed step, in order, each holding the instruction that executed at that step, its registers, clock and exactly its data accesses; final registers are the last trace entry.", "quantifier": "every program free of print instructions and every run", "why_tests_cant": "the parser of a flat log can desynchronise at any step of an unbounded history", "anchors": ["crates/prover/src/adapter/memory.rs:ExecutionBundleIterator::next", "crates/runner/src/vm/mod.rs:VM::step"]}
{"id": "C26", "title": "Memory records balance", "statement": "For every access sequence, the multiset of (address, clock, value) records produced by initial memory, accesses and clock updates equals the multiset consumed by accesses, clock updates and final memory.", "quantifier": "every access sequence and initial memory", "why_tests_cant": "histories unbounded", "anchors": ["crates/prover/src/adapter/memory.rs:Memory::push", "crates/prover/src/adapter/memory.rs:Memory::update_multiplicities"]}
{"id": "C27", "title": "Clock differences fit the range check", "statement": "Every access record delivered to the prover has a positive clock difference below 2^20, whatever the distance in time between accesses to the same cell.", "quantifier": "every access history", "why_tests_cant": "needs histories longer than 2^20 steps", "anchors": ["crates/prover/src/adapter/memory.rs:Memory::push", "crates/prover/src/adapter/memory.rs:RC20_LIMIT"]}
{"id": "C28", "title": "Memory commitment is determined by and binds the memory", "statement": "The sparse Merkle root computed from a memory depends only on the zero-defaulted contents (not on which untouched or zero cells are listed, nor on listing order) and, if the hash is injective, two memories with the same root have the same contents at every address.", "quantifier": "every finite memory map over the 2^28 address space", "why_tests_cant": "2^28-leaf tree, arbitrary maps", "anchors": ["crates/prover/src/adapter/merkle.rs:build_partial_merkle_tree", "crates/prover/src/poseidon2.rs"]}
{"id": "C29", "title": "Consecutive segment proofs chain by memory root", "statement": "The final memory of a segment as seen by the prover agrees, at every address, with the initial memory of the next segment, so that the two roots coincide.", "quantifier": "every segmented run", "why_tests_cant": "needs runs crossing segment boundaries with first-touch writes", "anchors": ["crates/prover/src/adapter/memory.rs:Memory::push", "crates/prover/src/adapter/mod.rs:import_internal"]}
{"id": "C30", "title": "Felt arithmetic circuit is sound", "statement": "Any assignment of trace columns satisfying the constraints and lookups of the felt add/sub/mul/div (memory-memory and memory-immediate) circuit row with the enabler set describes a genuine execution of one of its opcodes: the memory words read and written and the register change are those the VM semantics gives.", "quantifier": "every assignment of field elements to the columns of a row", "why_tests_cant": "soundness is about adversarial columns, which no honest-prover test produces; 2^31 values per column", "anchors": ["crates/prover/src/components/opcodes/store_fp_fp.rs:Eval::evaluate", "crates/prover/src/components/opcodes/store_fp_imm.rs:Eval::evaluate"]}
{"id": "C31", "title": "Control-flow circuits are sound", "statement": "Any assignment of trace columns satisfying the constraints and lookups of the jump, conditional jump, call, return and assertion circuit row with the enabler set describes a genuine execution of one of its opcodes: the memory words read and written and the register change are those the VM semantics gives.", "quantifier": "every assignment of field elements to the columns of a row", "why_tests_cant": "soundness is about adversarial columns, which no honest-prover test produces; 2^31 values per column", "anchors": ["crates/prover/src/components/opcodes/jmp_imm.rs", "crates/prover/src/components/opcodes/jnz_fp_imm.rs", "crates/prover/src/components/opcodes/call_abs_imm.rs", "crates/prover/src/components/opcodes/ret.rs", "crates/prover/src/components/opcodes/assert_eq_fp_imm.rs"]}
{"id": "C32", "title": "Data-movement circuits are sound", "statement": "Any assignment of trace columns satisfying the constraints and lookups of the immediate store, frame-pointer store and double-dereference load/store circuit row with the enabler set describes a genuine execution of one of its opcodes: the memory words read and written and the register change are those the VM semantics gives.", "quantifier": "every assignment of field elements to the columns of a row", "why_tests_cant": "soundness is about adversarial columns, which no honest-prover test produces; 2^31 values per column", "anchors": ["crates/prover/src/components/opcodes/store_imm.rs", "crates/prover/src/components/opcodes/u32_store_imm.rs", "crates/prover/src/components/opcodes/store_frame_pointer.rs", "crates/prover/src/components/opcodes/double_deref_fp_imm.rs", "crates/prover/src/components/opcodes/double_deref_fp_fp.rs"]}
{"id": "C33", "title": "u32 addition and subtraction circuits are sound", "statement": "Any assignment of trace columns satisfying the constraints and lookups of the u32 add/sub circuit row with the enabler set describes a genuine execution of one of its opcodes: the memory words read and written and the register change are those the VM semantics gives.", "quantifier": "every assignment of field elements to the columns of a row", "why_tests_cant": "soundness is about adversarial columns, which no honest-prover test produces; 2^31 values per column", "anchors": ["crates/prover/src/components/opcodes/u32_store_add_fp_fp.rs", "crates/prover/src/components/opcodes/u32_store_add_fp_imm.rs", "crates/prover/src/components/opcodes/u32_store_sub_fp_fp.rs"]}
{"id": "C34", "title": "u32 multiplication circuits are sound", "statement": "Any assignment of trace columns satisfying the constraints and lookups of the u32 mul circuit row with the enabler set describes a genuine execution of one of its opcodes: the memory words read and written and the register change are those the VM semantics gives.", "quantifier": "every assignment of field elements to the columns of a row", "why_tests_cant": "soundness is about adversarial columns, which no honest-prover test produces; 2^31 values per column", "anchors": ["crates/prover/src/components/opcodes/u32_store_mul_fp_fp.rs", "crates/prover/src/components/opcodes/u32_store_mul_fp_imm.rs"]}
{"id": "C35", "title": "u32 division circuits are sound", "statement": "Any assignment of trace columns satisfying the constraints and lookups of the u32 div-rem circuit row with the enabler set describes a genuine execution of one of its opcodes: the memory words read and written and the register change are those the VM semantics gives.", "quantifier": "every assignment of field elements to the columns of a row", "why_tests_cant": "soundness is about adversarial columns, which no honest-prover test produces; 2^31 values per column", "anchors": ["crates/prover/src/components/opcodes/u32_store_div_fp_fp.rs", "crates/prover/src/components/opcodes/u32_store_div_fp_imm.rs"]}
{"id": "C36", "title": "u32 comparison circuits are sound", "statement": "Any assignment of trace columns satisfying the constraints and lookups of the u32 eq/lt circuit row with the enabler set describes a genuine execution of one of its opcodes: the memory words read and written and the register change are those the VM semantics gives.", "quantifier": "every assignment of field elements to the columns of a row", "why_tests_cant": "soundness is about adversarial columns, which no honest-prover test produces; 2^31 values per column", "anchors": ["crates/prover/src/components/opcodes/u32_store_eq_fp_fp.rs", "crates/prover/src/components/opcodes/u32_store_eq_fp_imm.rs", "crates/prover/src/components/opcodes/u32_store_lt_fp_fp.rs", "crates/prover/src/components/opcodes/u32_store_lt_fp_imm.rs"]}
{"id": "C37", "title": "u32 bitwise circuits are sound", "statement": "Any assignment of trace columns satisfying the constraints and lookups of the u32 and/or/xor circuit row with the enabler set describes a genuine execution of one of its opcodes: the memory words read and written and the register change are those the VM semantics gives.", "quantifier": "every assignment of field elements to the columns of a row", "why_tests_cant": "soundness is about adversarial columns, which no honest-prover test produces; 2^31 values per column", "anchors": ["crates/prover/src/components/opcodes/u32_store_bitwise_fp_fp.rs", "crates/prover/src/components/opcodes/u32_store_bitwise_fp_imm.rs"]}
{"id": "C38", "title": "Felt comparison circuit is sound", "statement": "Any assignment of trace columns satisfying the constraints and lookups of the felt less-or-equal against an immediate circuit row with the enabler set describes a genuine execution of one of its opcodes: the memory words read and written and the register change are those the VM semantics gives.", "quantifier": "every assignment of field elements to the columns of a row", "why_tests_cant": "soundness is about adversarial columns, which no honest-prover test produces; 2^31 values per column", "anchors": ["crates/prover/src/components/opcodes/store_le_fp_imm.rs"]}
{"id": "C39", "title": "Honest execution satisfies the circuits", "statement": "For every step the VM can execute (other than prints) with operands in distinct cells, the columns the trace writer fills satisfy every constraint of the component that handles its opcode.", "quantifier": "every instruction and machine state with non-aliased operand cells", "why_tests_cant": "completeness over all operand values", "anchors": ["crates/prover/src/components/opcodes/store_fp_fp.rs:write_trace", "crates/prover/src/components/opcodes/u32_store_mul_fp_fp.rs:write_trace", "crates/prover/src/components/opcodes/store_le_fp_imm.rs:write_trace"]}
{"id": "C40", "title": "The memory argument forces read-after-write consistency", "statement": "If the memory relation balances, boundary records are one initial and one final record per address and clock differences are range checked without wrap-around, then every access record's previous value is the value left by the previous access to that address (or the initial value).", "quantifier": "every multiset of access records of any size", "why_tests_cant": "adversarial record sets of unbounded size", "anchors": ["crates/prover/src/components/memory.rs", "crates/prover/src/components/clock_update.rs", "crates/prover/src/relations.rs"]}
{"id": "C41", "title": "Accepted traces are executions", "statement": "If a set of component rows satisfies all opcode constraints, the register and memory relations balance and the boundary is honest, then there is a VM-semantics execution from the public initial registers and memory to the public final registers and memory with exactly the claimed number of steps.", "quantifier": "every accepted set of rows of any size", "why_tests_cant": "adversarial prover, unbounded traces", "anchors": ["crates/prover/src/components/opcodes/mod.rs", "crates/prover/src/public_data.rs", "crates/prover/src/verifier.rs"]}
{"id": "C42", "title": "Every executable instruction can be proved", "statement": "Every opcode the VM can execute is assigned to exactly one circuit component.", "quantifier": "every opcode", "why_tests_cant": "needs the whole opcode table of two crates", "anchors": ["crates/prover/src/components/opcodes/mod.rs:opcodes!"]}
{"id": "C43", "title": "Public claims cannot be forged", "statement": "No set of component rows satisfying every constraint and lookup balance exists for public data that no execution produces. (Violated: boundary multiplicities are unconstrained.)", "quantifier": "every public statement and every row assignment", "why_tests_cant": "no test plays a malicious prover", "anchors": ["crates/prover/src/components/memory.rs:Eval::evaluate", "crates/prover/src/components/merkle.rs:Eval::evaluate", "crates/prover/src/components/clock_update.rs"]}
{"id": "C44", "title": "Compile-time evaluation equals run-time evaluation", "statement": "Whenever the compiler evaluates an operation on literals, the literal it produces is the value the corresponding VM instructions compute at run time.", "quantifier": "every operator and pair of literals", "why_tests_cant": "2^64 literal pairs per operator", "anchors": ["crates/compiler/mir/src/passes/const_eval.rs:ConstEvaluator"]}
{"id": "C45", "title": "Algebraic simplification preserves meaning", "statement": "Every rewrite made by the arithmetic simplification pass computes the same value as the original instruction for every value of its operands. (Violated for 0-x and 1/x.)", "quantifier": "every instruction and every operand value", "why_tests_cant": "all operand values", "anchors": ["crates/compiler/mir/src/passes/arithmetic_simplify.rs:ArithmeticSimplify::try_simplify_binary"]}
{"id": "C46", "title": "Branch fusion preserves the branch taken", "statement": "Replacing a comparison followed by a conditional branch with a fused branch goes to the same block for every operand value. (Violated at code generation for u32 compared with zero.)", "quantifier": "every comparison, operand value and target pair", "why_tests_cant": "all operand values", "anchors": ["crates/compiler/mir/src/passes/fuse_cmp.rs:FuseCmpBranch", "crates/compiler/mir/src/passes/simplify_branches.rs", "crates/compiler/codegen/src/generator.rs:generate_terminator"]}
{"id": "C47", "title": "Comparison legalisation preserves meaning", "statement": "Rewriting !=, >, >=, <= on u32 in terms of ==, < and boolean negation computes the same boolean.", "quantifier": "all pairs of u32 values", "why_tests_cant": "2^64 pairs", "anchors": ["crates/compiler/codegen/src/mir_passes/legalize.rs"]}
{"id": "C48", "title": "Felt expressions compile to code computing them", "statement": "The code emitted for a felt +,-,*,/,==,!= with operands in frame slots or literals leaves the field result in the destination slot and changes only the destination and fresh temporaries.", "quantifier": "every operand value, literal, slot and machine state", "why_tests_cant": "all values and frames", "anchors": ["crates/compiler/codegen/src/builder/felt.rs"]}
{"id": "C49", "title": "u32 expressions compile to code computing them", "statement": "The code emitted for u32 arithmetic, comparison and bitwise expressions leaves the u32 result in the destination slots.", "quantifier": "every operand value, literal and slot", "why_tests_cant": "2^64 values", "anchors": ["crates/compiler/codegen/src/builder/u32_ops.rs"]}
{"id": "C50", "title": "Boolean expressions compile to code computing them", "statement": "The code emitted for and/or/not leaves 0 or 1 as the logical connective of the truthiness of the operands.", "quantifier": "every operand value", "why_tests_cant": "branching code with label fix-ups; all values", "anchors": ["crates/compiler/codegen/src/builder/ctrlflow.rs"]}
{"id": "C51", "title": "u32-to-felt cast is exact or traps", "statement": "The code emitted for a u32 to felt cast stores the numeric value when it is below 2^31-1 and otherwise fails an assertion.", "quantifier": "all u32 values", "why_tests_cant": "2^32 values; boundary at the prime", "anchors": ["crates/compiler/codegen/src/builder.rs:generate_cast"]}
{"id": "C52", "title": "Operand de-duplication preserves meaning and makes operands distinct", "statement": "The post-codegen pass that copies duplicate operands to temporaries preserves the effect on all non-temporary cells and leaves no instruction with two identical source operands. (Violated for bitwise and double-dereference instructions.)", "quantifier": "every instruction list and machine state", "why_tests_cant": "all instruction sequences", "anchors": ["crates/compiler/codegen/src/passes/mod.rs:DeduplicateOperandsPass"]}
{"id": "C53", "title": "Immediate canonicalisation preserves meaning", "statement": "Replacing multiplications by 0 or 1 and similar immediate operations with cheaper instructions yields the same machine state.", "quantifier": "every instruction and state", "why_tests_cant": "all states", "anchors": ["crates/compiler/codegen/src/passes/mod.rs:CanonicalizeImmediateOpsPass"]}
{"id": "C54", "title": "Frame slots never overlap", "statement": "In every frame layout, parameters, return slots, saved registers, locals and temporaries of a function occupy pairwise disjoint frame-relative slots.", "quantifier": "every parameter/return/local size list", "why_tests_cant": "lists unbounded", "anchors": ["crates/compiler/codegen/src/layout.rs:FunctionLayout"]}
{"id": "C55", "title": "Label resolution targets the labelled instruction", "statement": "After resolution every jump or call transfers control to the memory address at which the instruction carrying the label is placed.", "quantifier": "every instruction list with mixed one- and two-word instructions and every label", "why_tests_cant": "addresses depend on all preceding instruction sizes", "anchors": ["crates/compiler/codegen/src/generator.rs:resolve_labels", "crates/compiler/codegen/src/generator.rs:calculate_memory_layout"]}
{"id": "C56", "title": "Heap allocations are disjoint", "statement": "Successive heap allocations return blocks lying inside the address space that do not overlap each other.", "quantifier": "every sequence of allocation sizes", "why_tests_cant": "sequences unbounded", "anchors": ["crates/compiler/codegen/src/generator.rs:lower_heap_alloc_cells"]}
{"id": "C57", "title": "SSA destruction preserves meaning", "statement": "The copy sequence that replaces the phi nodes of a block assigns every destination the value its source had before the sequence. (Violated for cyclic copies such as a swap.)", "quantifier": "every set of parallel copies and every initial environment", "why_tests_cant": "all permutation structures", "anchors": ["crates/compiler/mir/src/passes/phi_elimination.rs:sequence_parallel_copies"]}
{"id": "C58", "title": "Preprocessed tables contain exactly the intended tuples", "statement": "The bitwise lookup table contains (op,a,b,c) exactly for byte operands a,b with c the and/or/xor result, and the range tables contain exactly the integers below 2^N.", "quantifier": "all table rows and all tuples", "why_tests_cant": "2^18 rows and all non-members", "anchors": ["crates/prover/src/preprocessed/bitwise.rs", "crates/prover/src/preprocessed/range_check"]}
{"id": "C59", "title": "Published input and output ranges are the argument and return slots", "statement": "The input range published with a run is the range of addresses holding the argument words at the first step, and the output range is the range holding the return slots at the end.", "quantifier": "every program, entry point, parameter and return types and arguments", "why_tests_cant": "depends on every combination of array and scalar parameters; the tests only use scalar ones", "anchors": ["crates/runner/src/lib.rs:run_cairo_program", "crates/common/src/program.rs:PublicAddressRanges::new"]}
{"id": "C60", "title": "Removal of unused instructions preserves results", "statement": "Dead-code elimination removes only instructions whose result is never used; a function that runs without fault returns the same values after it. (Faults of removed instructions disappear.)", "quantifier": "every function, every argument list, every meaning of its callees, every number of steps", "why_tests_cant": "Use counts are computed over whole functions with arbitrary control flow and removal iterates to a fixpoint; tests sample a few functions.", "anchors": ["crates/compiler/mir/src/passes/dead_code_elimination.rs:remove_dead_instructions"]}
{"id": "C61", "title": "Removal of unreachable blocks preserves results", "statement": "Removing the unreachable blocks of a function and renumbering the remaining ones does not change the values it returns. (Violated for functions with phi instructions: their sources keep the old numbers.)", "quantifier": "every function and every argument list", "why_tests_cant": "The renumbering depends on the shape of the whole control-flow graph; the failing shapes need a constant branch before a merge.", "anchors": ["crates/compiler/mir/src/passes/dead_code_elimination.rs:run", "crates/compiler/mir/src/passes/dead_code_elimination.rs:remap_terminator"]}
{"id": "C62", "title": "Constant propagation preserves results", "statement": "Sparse constant propagation (including the joining of values at merges) replaces a value by a constant only if every execution gives it that constant: a function that runs without fault returns the same values afterwards. (Violated for calls with several results: a merge of such a result with a constant is replaced by the constant.)", "quantifier": "every well-typed function, every well-typed argument list, every meaning of its callees, every number of steps", "why_tests_cant": "The analysis is a fixpoint over the whole function, loops included; a wrong join only shows on particular combinations of path and values.", "anchors": ["crates/compiler/mir/src/passes/constant_propagation.rs:run"]}
{"id": "C63", "title": "An array literal holds the listed elements", "statement": "After the code emitted for an array literal has run, the array's pointer designates consecutive cells holding exactly the listed elements in order, and nothing outside the new cells and the pointer is changed. (Violated for elements that are the literal 0: they are not written and hold whatever the stack contained.)", "quantifier": "every array literal of felts, every frame, every memory", "why_tests_cant": "Cells skipped by the generator are usually still zero in a short test; stale values need a previous call that left data on the stack.", "anchors": ["crates/compiler/codegen/src/builder/aggregates.rs:make_fixed_array"]}
{"id": "C64", "title": "Updating a field does not change values read before", "statement": "Aggregates are values: a field read before an update of the aggregate keeps its value after the update. (Violated: a field read aliases the slot of the struct and the update writes it in place.)", "quantifier": "every function that reads and updates a field", "why_tests_cant": "It needs a use of the old value after the update, in every combination of nesting and control flow.", "anchors": ["crates/compiler/codegen/src/builder/aggregates.rs:extract_struct_field", "crates/compiler/codegen/src/builder/aggregates.rs:insert_struct_field"]}
{"id": "C65", "title": "Loads and stores through places access the addressed element", "statement": "A load or store through a place (base pointer, indices, fields) reads or writes exactly the cells at base + index offsets + field offsets, for every index value. (Violated for a literal stored through an index not known at compile time followed by a field: the field offset is dropped.)", "quantifier": "every place, every index value, every memory", "why_tests_cant": "The emitted address computation differs per combination of static and dynamic indices, fields and kind of stored value; tests cover few of them.", "anchors": ["crates/compiler/codegen/src/generator.rs:Load", "crates/compiler/codegen/src/generator.rs:Store"]}
{"id": "C66", "title": "Compiled functions compute what they mean", "statement": "Whenever a well-typed scalar function of the mid-level representation returns values on some arguments, the code generated for it, started with these arguments below the frame pointer, reaches its return instruction with exactly these values in the return slots, the saved registers intact and nothing outside its frame changed.", "quantifier": "every well-typed function (any blocks, branches, loops), every arguments, every frame pointer and memory, every length of execution", "why_tests_cant": "Slots are chosen by layout, argument and return placement and temporaries; whether they interfere depends on the whole control flow and on values at run time.", "anchors": ["crates/compiler/codegen/src/generator.rs:generate_basic_blocks", "crates/compiler/codegen/src/generator.rs:generate_terminator", "crates/compiler/codegen/src/builder/calls.rs:return_values", "crates/compiler/codegen/src/layout.rs:FunctionLayout"]}
{"id": "C67", "title": "Running a compiled program gives the meaning of the called function", "statement": "Compile a module of well-typed scalar functions, load it into the virtual machine and run one of its functions on command-line inputs. If the function, read as source-level code with calls and recursion, returns some values on these arguments, then the run ends without error for every segment size, and the values shown by the runner are exactly those.", "quantifier": "every module of well-typed scalar functions (any branches, loops, calls, recursion), every entry function, every arguments, every call depth and length of execution that fits the address space, every segment size", "why_tests_cant": "Layout, argument passing, peephole rewriting, label resolution, call frames, segmentation and decoding must agree for every program and every execution; a test exercises one program on one input.", "anchors": ["crates/compiler/codegen/src/backend.rs:compile_module", "crates/compiler/codegen/src/generator.rs:generate_module", "crates/runner/src/lib.rs:run_cairo_program", "crates/runner/src/vm/mod.rs:run_from_entrypoint"]}
{"id": "C68", "title": "Copy propagation preserves meaning", "statement": "For every function in static single assignment form, replacing every copy by its ultimate source and deleting the copies keeps the result of every run that does not fail, whatever the order in which the copies are visited, and the result is again in static single assignment form.", "quantifier": "every function in SSA form (any control flow, loops, chains of copies across blocks), every argument list, every length of execution, every visiting order", "why_tests_cant": "The replacement is global: whether a use sees the value of the source depends on every path to the use. The order in which the hash map yields the copies is not fixed.", "anchors": ["crates/compiler/mir/src/passes/copy_propagation.rs:CopyPropagation", "crates/compiler/mir/src/function.rs:replace_all_uses"]}
{"id": "C69", "title": "Common subexpression elimination preserves meaning", "statement": "For every function in static single assignment form, replacing a repeated expression of a block by its first occurrence and deleting unused instructions of that block keeps the outcome of every run, failing or not, and the result is again in static single assignment form.", "quantifier": "every function in SSA form, every argument list, every length of execution", "why_tests_cant": "Which instructions are merged or deleted depends on all other instructions of the function; side effects of deleted instructions only show on particular inputs.", "anchors": ["crates/compiler/mir/src/passes/local_cse.rs:LocalCSE", "crates/compiler/mir/src/passes/local_cse.rs:PureExpressionKey"]}
{"id": "C70", "title": "Claimed memory is the committed memory", "statement": "In every accepted proof, each memory cell that the trace or the public data claims to start or end with a value has that value in the memory whose commitment root is published, unless the hash function has a collision.", "quantifier": "every accepted trace, every public data, every memory with the published root, every address below 2^28", "why_tests_cant": "A test proves honest traces; a forged trace combines rows of several components so that their lookups cancel, and there are unboundedly many such combinations.", "anchors": ["crates/prover/src/components/memory.rs:Eval::evaluate", "crates/prover/src/components/merkle.rs:Eval::evaluate", "crates/prover/src/public_data.rs:PublicData::initial_logup_sum", "crates/prover/src/adapter/merkle.rs"]}
{"id": "C71", "title": "The hash circuit computes the hash", "statement": "A row of the hash component that satisfies its constraints publishes the Poseidon2 permutation of its input and nothing else, every input has such a row, and in an accepted proof the parent of every enabled Merkle row is the hash of its children.", "quantifier": "every input, all round constants, every assignment to the columns of a row, every accepted trace", "why_tests_cant": "An honest witness satisfies a circuit with missing constraints just as well; only a proof over all assignments shows that no other output is accepted.", "anchors": ["crates/prover/src/components/poseidon2.rs:Eval::evaluate", "crates/prover/src/components/poseidon2.rs:Claim::write_trace", "crates/prover/src/components/poseidon2.rs:apply_external_round_matrix", "crates/prover/src/components/poseidon2.rs:apply_internal_round_matrix", "crates/prover/src/poseidon2.rs:Poseidon2Hash"]}
{"id": "C72", "title": "Lowering keeps the meaning of functions", "statement": "The mid-level code produced for a well-typed function returns, on every argument list of the right types, what the source function means: the same values, and a fault exactly where the source faults, and it runs forever exactly when the source does, for all control flow (nested loops of the three kinds, break, continue, early return), all variables and all callees.", "quantifier": "every well-typed function of the scalar language, every behaviour of its callees, every argument list, every traversal order of the compiler's hash maps, runs of any length", "why_tests_cant": "Static single assignment form is built on the fly with placeholders that are completed later; errors show only for particular combinations of loops, copies and later reads.", "anchors": ["crates/compiler/mir/src/lowering/stmt.rs:lower_statement", "crates/compiler/mir/src/lowering/expr.rs:lower_expression", "crates/compiler/mir/src/lowering/function.rs:lower_function", "crates/compiler/mir/src/function.rs:read_variable", "crates/compiler/mir/src/function.rs:seal_block", "crates/compiler/mir/src/function.rs:try_remove_trivial_phi", "crates/compiler/mir/src/builder/cfg_builder.rs:set_terminator_internal"]}
{"id": "C73", "title": "A compiled source program computes what the source means", "statement": "Compiling a program (lowering, all passes of the pipeline with or without optimisation, code generation, linking) and running the result from the entry point of a function on encoded arguments ends and returns the encoded values that calling this function on these arguments gives in the source language.", "quantifier": "every well-typed program of the scalar language, both pipelines, every function and argument list, every iteration order of the compiler's hash maps, every segment length of the runner, runs and call chains of any length that fit into the memory", "why_tests_cant": "The result depends on all stages together and on unboundedly many programs, inputs and iteration orders of hash maps.", "anchors": ["crates/compiler/mir/src/pipeline.rs", "crates/compiler/mir/src/passes.rs:standard_pipeline", "crates/compiler/mir/src/lowering/function.rs:lower_function", "crates/compiler/codegen/src/backend.rs:compile_module", "crates/runner/src/lib.rs:run_cairo_program"]}
{"id": "C74", "title": "Operators group by precedence and associativity", "statement": "Reading an expression groups its operators by the precedence table of the language, operators of one row to the left: writing any expression tree that needs no parentheses under this table and reading it again gives this tree, and every expression that is read needs no further parentheses. The table is the one documented with the grammar.", "quantifier": "every expression (calls, casts, indexing, tuples, arrays, struct literals, allocations, nested to any depth) and every following text that cannot continue the expression", "why_tests_cant": "There are infinitely many nestings of operators, and alternatives of the parser commit without backtracking, so one construct can change the reading of another one.", "anchors": ["crates/compiler/parser/src/parser.rs:expression_parser", "crates/compiler/parser/src/parser.rs:type_expr_parser"]}
{"id": "C75", "title": "Formatting does not change the program", "statement": "Formatting a source file that parses gives a file that parses to the same program, whatever the line width and the indentation; formatting is therefore idempotent.", "quantifier": "every source text without comments, every line width and indentation width", "why_tests_cant": "Line breaks depend on the widths of all parts and the reading of one construct depends on what follows it; a formatter test covers one text and one width.", "anchors": ["crates/compiler/formatter/src/api.rs:format_source_file", "crates/compiler/formatter/src/rules", "crates/compiler/formatter/src/doc.rs:Doc::render", "crates/compiler/parser/src/parser.rs:parse_file"]}
{"id": "C76", "title": "A text is split into tokens by longest match, layout does not matter", "statement": "Writing a sequence of tokens with any white space between them, and with none where the neighbours cannot merge, is read as exactly this sequence.", "quantifier": "every token sequence (identifiers, keywords, numbers below 2^64 with or without suffix, operators) and every choice of white space", "why_tests_cant": "Longest match makes the reading of a character depend on what follows it, for texts of any length.", "anchors": ["crates/compiler/parser/src/lexer.rs:TokenType"]}
{"id": "C77", "title": "Number literals denote their value", "statement": "A literal in base 10, 16, 8 or 2, with or without the suffix felt or u32, is read as the number its digits denote; a literal whose value does not fit into 64 bits or with a digit that does not belong to its base is rejected, never truncated.", "quantifier": "every digit sequence of any length, every base, every suffix", "why_tests_cant": "Suffixes overlap with hexadecimal digits and the value is unbounded, so the claim ranges over infinitely many literals.", "anchors": ["crates/compiler/parser/src/lexer.rs:parse_number_literal"]}
{"id": "C78", "title": "Unreachable-code warnings are right", "statement": "A statement reported as unreachable is never executed, whatever the conditions of the branches and loops evaluate to; a function about which nothing is reported has only statements that some execution reaches; and a function without a break-or-continue-outside-loop error never leaves a loop that is not there.", "quantifier": "every function body (any nesting of blocks, branches and loops) and every execution of it, finished or not", "why_tests_cant": "The claim ranges over all bodies and over all, possibly infinite, executions.", "anchors": ["crates/compiler/semantic/src/validation/control_flow_validator.rs:analyze_for_unreachable_code_in_sequence", "crates/compiler/semantic/src/validation/control_flow_validator.rs:contains_break"]}
{"id": "C79", "title": "An accepted function never runs off its end", "statement": "If the missing-return analysis accepts a function, every execution of its body that finishes does so by a return statement.", "quantifier": "every function body and every execution of it", "why_tests_cant": "Bodies nest without bound and a single missed path is enough; running off the end continues in the code of another function.", "anchors": ["crates/compiler/semantic/src/validation/control_flow_validator.rs:body_returns_on_all_paths", "crates/compiler/semantic/src/validation/control_flow_validator.rs:statement_guarantees_hard_return"]}
{"id": "C80", "title": "Names are resolved lexically", "statement": "Every use of a name refers to the innermost enclosing declaration of that name that precedes the use, the latest one in a scope with several; functions can be used before their declaration; an inner declaration never changes what a use outside its block refers to. (Violated when the body of a `for` loop is a bare declaration: the step then refers to it; and a constant used in its own value is not reported as undeclared.)", "quantifier": "every program of functions with any nesting of blocks and any shadowing", "why_tests_cant": "Depends on the interplay of global tables, scope ids and visiting order for arbitrarily nested scopes.", "anchors": ["crates/compiler/semantic/src/semantic_index.rs:SemanticIndexBuilder", "crates/compiler/semantic/src/semantic_index.rs:latest_definition_index_by_name_in_chain"]}
{"id": "C81", "title": "Accepted programs are well-typed for the code generator", "statement": "If the semantic checks report no error, every expression has the type the context requires, the operator instruction the lowering selects is the one for the types of the operands, and every literal fits its type.", "quantifier": "every program of the scalar fragment (felt, u32, bool, functions, control flow)", "why_tests_cant": "The type of a literal depends on the context in which it is asked for, and the validator and the lowering ask in different contexts; the claim ranges over all expressions.", "anchors": ["crates/compiler/semantic/src/type_resolution.rs:expression_semantic_type", "crates/compiler/semantic/src/validation/type_validator.rs:TypeValidator", "crates/compiler/mir/src/lowering/expr.rs:lower_binary_op", "crates/compiler/semantic/src/validation/literal_validator.rs:LiteralValidator"]}
{"id": "C82", "title": "Whether a function is accepted depends on itself and the signatures it uses", "statement": "The types of the expressions of a function depend only on its own text and on the signatures of the functions it calls; adding, removing or reordering other functions does not change them.", "quantifier": "every function and every two programs that contain it and agree on the signatures it uses", "why_tests_cant": "Quantifies over pairs of programs.", "anchors": ["crates/compiler/semantic/src/type_resolution.rs:expression_semantic_type"]}
{"id": "C83", "title": "From program text to machine run", "statement": "If the compiler accepts the text of a program, running the compiled program on arguments returns what the program text means: parsing, name resolution, types, lowering, passes, code generation, linking and execution together.", "quantifier": "every program text of the scalar fragment that passes the checks, every function and all arguments on which it terminates without fault", "why_tests_cant": "The composition of all stages over all programs and inputs.", "anchors": ["crates/compiler/src/lib.rs:compile_project", "crates/runner/src/lib.rs:run_cairo_program"]}
{"id": "C84", "title": "Lowering a WebAssembly function preserves its meaning", "statement": "When the WebAssembly front end accepts a function, running the function it produces on arguments returns the values that the WebAssembly function returns: every i32 instruction, branches to labels, loops with carried values, branches that leave several loops, conditional branches and calls keep their meaning.", "quantifier": "every function in the flat data-flow form the front end reads, every meaning of the called functions, all arguments on which the function returns", "why_tests_cant": "Ranges over all functions, nestings of loops and labels, and all 32-bit arguments.", "anchors": ["crates/wasm/src/lowering/mod.rs:function_to_mir", "crates/wasm/src/lowering/cfg.rs:generate_instructions_from_dag", "crates/wasm/src/lowering/ops.rs:convert_wasm_op_to_mir", "crates/wasm/src/lowering/context.rs:finalize_phi_nodes"]}
{"id": "C85", "title": "From a WebAssembly module to the machine", "statement": "If a WebAssembly module is accepted, running the compiled program on arguments returns what the WebAssembly function returns, through lowering, passes, code generation, linking and execution.", "quantifier": "every module of the supported fragment, every exported function and all arguments on which it returns", "why_tests_cant": "The composition of all stages over all modules and inputs.", "anchors": ["crates/wasm/src/lowering/mod.rs:lower_program_to_mir", "crates/compiler/codegen/src/lib.rs:compile_module"]}
{"id": "C86", "title": "WebAssembly memory accesses reach the right cells", "statement": "An i32 load returns the four bytes last stored at its address: the address in the linear memory is the sum of the operand and the constant offset, different words do not share cells, and an access out of the memory's range traps.", "quantifier": "all addresses, offsets, stored values and histories of loads and stores", "why_tests_cant": "Ranges over all 32-bit addresses and offsets and over histories of accesses.", "anchors": ["crates/wasm/src/lowering/ops.rs:compute_cm_address_from_wasm_address", "crates/wasm/src/lowering/ops.rs:cm_offset_from_wasm_i32_offset"]}
{"id": "C87", "title": "Scalar replacement of aggregates keeps results", "statement": "A function with tuples and structs returns the same values after the optimisation that replaces aggregates by their elements, and the optimisation does not panic; functions without aggregates are left unchanged.", "quantifier": "all functions of the mid-level representation, all arguments, all behaviours of the called functions, all run lengths", "why_tests_cant": "Ranges over all control-flow graphs, nestings of aggregates and orders of updates, extractions and calls.", "anchors": ["crates/compiler/mir/src/passes/sroa.rs:ScalarReplacementOfAggregates::run", "crates/compiler/mir/src/passes/sroa.rs:can_scalarize_aggregate", "crates/compiler/mir/src/passes/sroa.rs:find_cross_block_aggregates", "crates/compiler/mir/src/passes/sroa.rs:materialize"]}
{"id": "C88", "title": "Import cycles are found exactly, and imported modules are analysed first", "statement": "A crate is rejected with a cyclic-import error exactly if a chain of imports leads from a module back to itself; the error lists such a chain, the same one whatever the iteration order of hash maps; otherwise every module is analysed once and after the modules it imports. The search never panics and always ends.", "quantifier": "all import graphs, including imports of modules that do not exist, and all iteration orders of hash maps", "why_tests_cant": "Ranges over all graphs and over the iteration orders of hash maps, which differ from run to run.", "anchors": ["crates/compiler/semantic/src/db.rs:detect_import_cycle", "crates/compiler/semantic/src/db.rs:topological_sort", "crates/compiler/semantic/src/db.rs:project_semantic_index"]}
{"id": "C89", "title": "The language server's diagnostics are current", "statement": "Each time the diagnostics of a project are requested, the answer consists of the diagnostics of the current texts of the project's modules, whatever edits, requests, project loads and database swaps came before.", "quantifier": "all histories of edits, loads, swaps and requests, any number of projects and modules", "why_tests_cant": "The answer depends on cached state left behind by the whole history.", "anchors": ["crates/compiler/semantic/src/delta_diagnostics.rs:DeltaDiagnosticsTracker::get_project_diagnostics", "crates/compiler/semantic/src/delta_diagnostics.rs:has_module_changed", "crates/cairo-m-ls/src/diagnostics/controller.rs:compute_project_diagnostics_delta", "crates/cairo-m-ls/src/db/swapper.rs:perform_swap"]}
{"id": "C90", "title": "Positions in editor requests and answers designate the right place", "statement": "The position sent to the editor for a place in the text is the line and column of that place as the Language Server Protocol defines them, and a position received from the editor is converted to the place it designates; the two conversions are inverse to each other.", "quantifier": "all texts, all places in them, all positions", "why_tests_cant": "Ranges over all texts, including line ends and characters outside the basic plane, and all offsets.", "anchors": ["crates/cairo-m-ls/src/backend.rs:offset_to_position", "crates/cairo-m-ls/src/backend.rs:position_to_offset", "crates/cairo-m-ls/src/diagnostics/controller.rs:offset_to_position"]}
{"id": "C91", "title": "Formatting in the editor replaces the document by the formatted text", "statement": "Applying the edit that the server returns for a formatting request turns the document into the formatted text.", "quantifier": "all documents and all formatted texts", "why_tests_cant": "Ranges over all documents, with and without a final newline and with any line ends.", "anchors": ["crates/cairo-m-ls/src/backend.rs:formatting"]}
{"id": "C92", "title": "Edits reach the file they were made in", "statement": "After any history of opening, editing, loading projects and periodic database swaps, the text that the server analyses for an open file of a loaded project is the text the editor last sent for it.", "quantifier": "all histories and all interleavings of edits with the steps of a database swap, all iteration orders of hash maps", "why_tests_cant": "Depends on the interleaving of a background task with edits and on how many swaps have happened (one every five minutes).", "anchors": ["crates/cairo-m-ls/src/db/swapper.rs:perform_swap", "crates/cairo-m-ls/src/backend.rs:did_open", "crates/cairo-m-ls/src/backend.rs:did_change", "crates/cairo-m-ls/src/project/model.rs:load_crate_with_prepared_files_and_project"]}
{"id": "C93", "title": "Every source file of a project is compiled under the name of its path", "statement": "For a project with a manifest, every source file below the source directory becomes exactly one module, named after its path, with the text of the file; no file is dropped or replaced by another without a diagnostic; and the entry point named in the manifest is one of the modules.", "quantifier": "all project folders, all entry points, all directory trees and file names, all orders of the directory walk", "why_tests_cant": "Whether two files get the same module name depends on the names of all files; tests use a handful of projects with one entry point in the source directory.", "anchors": ["crates/compiler/cairo-m-project/src/model.rs:source_files", "crates/compiler/cairo-m-project/src/model.rs:module_name_from_path", "crates/compiler/cairo-m-project/src/discovery.rs:load_project_from_manifest", "crates/compiler/semantic/src/db.rs:crate_from_project"]}
{"id": "C94", "title": "Struct and tuple literals hold the listed values", "statement": "Reading a field of a struct literal, or an element of a tuple literal, right after it is built gives the value that was listed for it, whatever the order of the fields and the sizes of the values, and building it changes no other value.", "quantifier": "every struct type, every list of distinct fields in any order, every tuple type and list of elements of that type, every memory and frame", "why_tests_cant": "Types, nesting, sizes and orders of fields are unbounded, and the listed operands may lie anywhere in the frame.", "anchors": ["crates/compiler/codegen/src/builder/aggregates.rs:make_struct", "crates/compiler/codegen/src/builder/aggregates.rs:make_tuple", "crates/compiler/codegen/src/builder/aggregates.rs:extract_struct_field", "crates/compiler/codegen/src/builder/aggregates.rs:extract_tuple_element", "crates/compiler/codegen/src/builder/store.rs:copy_value_to_offset", "crates/compiler/mir/src/layout.rs:field_offset"]}
{"id": "C95", "title": "A constant has one value", "statement": "A constant denotes the value its expression has where it is defined; every use of it has that value. (Violated for local constants whose expression mentions a variable: the expression is evaluated again at each use.)", "quantifier": "every well-typed scalar function, every set of constants that may refer to each other, every argument list", "why_tests_cant": "Constants can refer to each other to any depth and be used at any place of any control flow, and the difference shows only when something changes between the definition and the use.", "anchors": ["crates/compiler/mir/src/lowering/expr.rs:lower_identifier", "crates/compiler/mir/src/lowering/stmt.rs:lower_const_statement", "crates/compiler/semantic/src/validation/type_validator.rs"]}
{"id": "C96", "title": "Names defined twice are reported", "statement": "The compiler reports every name that is defined twice where that is not allowed (at the top level of a file, among the parameters of a function, among the fields of a struct, inside one pattern), and reports no such error otherwise. At the top level a name defined n times is reported n-1 times. (Violated for patterns inside `for` loops, which are not checked.)", "quantifier": "every syntax tree of a file, with statements and patterns nested to any depth", "why_tests_cant": "The repetition can be at any depth of nested statements and patterns, between any two of any number of definitions; a test fixes one shape.", "anchors": ["crates/compiler/semantic/src/semantic_errors.rs:duplicate_top_level_items", "crates/compiler/semantic/src/validation/structural_validator.rs:StructuralValidator", "crates/compiler/semantic/src/validation/shared.rs"]}
{"id": "C97", "title": "Imports that lead nowhere are reported, the others lead to a definition", "statement": "The compiler reports a missing module exactly if a file imports from it, and an imported name exactly if its module exists and does not define or import the name at its top level. If nothing is reported and no import cycle is found, every imported name leads, through however many modules that import it in turn, to a function, struct or constant; if no module defines a name twice, that definition is the only one the name can stand for.", "quantifier": "every crate: any number of modules, any items, chains of imports of any length", "why_tests_cant": "Crates can have any number of modules and chains of re-exported names of any length; a test fixes one.", "anchors": ["crates/compiler/semantic/src/validation/scope_check.rs:check_import_validity", "crates/compiler/semantic/src/db.rs:project_import_graph", "crates/compiler/semantic/src/type_resolution.rs:definition_semantic_type", "crates/compiler/semantic/src/semantic_index.rs:declare_use"]}
{"id": "C98", "title": "Imported functions and constants can be used", "statement": "In a crate that passes the checks, a call of an imported function reaches the function whose type the call was checked against, and a use of an imported constant has the value of the constant. (A call that is lowered reaches the checked function. Violated: calls of functions imported from a module that imports them in turn are rejected in lowering with an internal error, and uses of imported constants make the compiler panic.)", "quantifier": "every crate: any number of modules, any items, chains of imports of any length, every state of the lowering", "why_tests_cant": "Which definition a name reaches depends on all modules of the crate; the existing tests import functions directly from the module that defines them.", "anchors": ["crates/compiler/mir/src/lowering/builder.rs:resolve_imported_function", "crates/compiler/mir/src/lowering/builder.rs:resolve_callee_expression", "crates/compiler/mir/src/lowering/expr.rs:lower_identifier", "crates/compiler/mir/src/function.rs:new_incomplete_phi"]}
{"id": "C99", "title": "Navigation in the editor looks into the file of the request", "statement": "A request for a definition or for the type of a name in a source file is answered from the analysis of that file. (Holds for files directly in the source directory. Violated in subdirectories: a request in src/d/s.cm is answered from src/s.cm if that file exists, and not answered otherwise.)", "quantifier": "every crate: any set of source files at any depth below the source directory", "why_tests_cant": "Whether two files get into each other's way depends on all names and directories of the crate; the tests use files in one directory.", "anchors": ["crates/cairo-m-ls/src/backend.rs:goto_definition", "crates/cairo-m-ls/src/backend.rs:hover", "crates/cairo-m-ls/src/db/mod.rs:to_semantic_crate"]}
{"id": "C100", "title": "Constants are not assigned to", "statement": "An assignment whose target is a constant, or a field or element of one at any depth, is reported, and no other assignment is reported as one to a constant; a target that is neither a variable nor a field nor an element is reported. (Violated for constants imported from a module that imports them in turn.)", "quantifier": "every crate, every expression on the left of an assignment", "why_tests_cant": "Targets can be nested to any depth and constants can be imported through any number of modules; a test fixes one.", "anchors": ["crates/compiler/semantic/src/validation/type_validator.rs:check_assignment_types", "crates/compiler/semantic/src/semantic_index.rs:resolve_name_with_imports_at_position"]}
{"id": "C101", "title": "An assignment changes what it names and nothing else", "statement": "After an assignment to a variable, or to a field or tuple element of one at any depth, the named component has the assigned value; all other components of the variable and all other variables have the values they had. An assignment to an element of an array, or to a component of one, is one store of the assigned value to the place of that component.", "quantifier": "every assignment target: any nesting of fields, tuple elements and parentheses, every type, every value of the variable, every assigned value", "why_tests_cant": "Targets nest to any depth and mix structs and tuples; a test fixes one target and looks at a few of the other components.", "anchors": ["crates/compiler/mir/src/lowering/stmt.rs:lower_assignment_statement", "crates/compiler/mir/src/lowering/stmt.rs:decompose_lhs_path", "crates/compiler/mir/src/lowering/builder.rs:bind_variable_def"]}
{"id": "C102", "title": "A let with a pattern binds each name to its component", "statement": "A let statement with a tuple pattern is accepted exactly if the pattern has the shape of the value, at every depth; it is then compiled, and afterwards each name of the pattern has the value of its component of the value, and every other variable has its old value. (Violated from the third level of nesting on: there the shape is not checked; surplus elements are dropped without notice, and a missing element or a value that is no tuple makes the compiler fail with an internal error.)", "quantifier": "every pattern: any nesting of tuples, any number of names; every type and value", "why_tests_cant": "Patterns nest to any depth; the tests use one or two levels.", "anchors": ["crates/compiler/semantic/src/validation/type_validator.rs:check_let_statement_types", "crates/compiler/mir/src/lowering/stmt.rs:lower_pattern", "crates/compiler/mir/src/lowering/stmt.rs:lower_pattern_with_type"]}
{"id": "C103", "title": "Every type of a program is resolved", "statement": "Every type expression of a program gets exactly one type, the one its names stand for, also when structs are declared later, in other modules, or refer to themselves through a pointer; a struct that holds itself is reported, and only the names of structs are types. (Violated: if a declaration that the expression names depends on itself in any way, also through pointers, the compiler panics, and it panics in no other case; and the name of a constant that is a struct is accepted as a type.)", "quantifier": "every crate: any number of modules, declarations and imports; every type expression", "why_tests_cant": "Declarations can depend on each other in chains and cycles of any length, across modules.", "anchors": ["crates/compiler/semantic/src/type_resolution.rs:resolve_ast_type", "crates/compiler/semantic/src/type_resolution.rs:definition_semantic_type", "crates/compiler/semantic/src/type_resolution.rs:struct_semantic_data", "crates/compiler/semantic/src/type_resolution.rs:function_semantic_signature"]}
{"id": "C104", "title": "What is accepted as a type is a type", "statement": "If a crate passes the checks, every type expression in it has a type without errors: its names are declared and stand for structs, and there are no arrays of arrays in it. (Violated: the name of a function or of a constant is accepted as a type; the annotation of a constant is not checked at all; arrays of arrays are not reported in structs, behind pointers and inside other arrays. Such types are compatible with every other, so that uses of them are not checked.)", "quantifier": "every crate; every type expression of any depth in a signature, struct or constant", "why_tests_cant": "Type expressions nest to any depth and names lead through any number of imports; the tests use a few fixed ones.", "anchors": ["crates/compiler/semantic/src/semantic_index.rs:visit_type_expr", "crates/compiler/semantic/src/visitor.rs:walk_type_expr", "crates/compiler/semantic/src/validation/scope_check.rs:check_undeclared_variables_global", "crates/compiler/semantic/src/validation/type_validator.rs:check_for_nested_arrays"]}
